{
 "claims": [
  {
   "property": "C01",
   "status": "proved",
   "theorems": [
    "HF.DataDict.C01_history_refines_ordered_map",
    "HF.DataDict.C01_iteration_exact",
    "HF.DataDict.C01_assignment",
    "HF.DataDict.C01_deletion",
    "HF.DataDict.C01_copy",
    "HF.DataDict.C01_pop_refuted",
    "HF.DataDict.C01_popitem_refuted",
    "HF.DataDict.C01_clear_refuted",
    "HF.DataDict.C01_constructor_order_refuted"
   ],
   "note": ""
  },
  {
   "property": "C02",
   "status": "proved",
   "theorems": [
    "HF.DataDict.C02_rename_fresh",
    "HF.DataDict.C02_rename_existing",
    "HF.DataDict.C02_rename_self",
    "HF.DataDict.C02_rename_missing",
    "HF.DataDict.C02_rename_constructor_refuted"
   ],
   "note": ""
  },
  {
   "property": "C03",
   "status": "proved",
   "theorems": [
    "HF.DataBlock.C03_shared_refuted",
    "HF.DataBlock.C03_relabel_length_refuted",
    "HF.DataBlock.C03_step",
    "HF.DataBlock.C03_known_careful",
    "HF.DataBlock.C03_known",
    "HF.DataBlock.C03_read_back",
    "HF.DataBlock.C03_read_others",
    "HF.DataBlock.C03_read_dimension",
    "HF.DataBlock.C03_read_known_dimension",
    "HF.DataBlock.C03_hidden_refuted"
   ],
   "note": ""
  },
  {
   "property": "C04",
   "status": "proved",
   "theorems": [
    "HF.DataBlock.C04_name",
    "HF.DataBlock.C04_read",
    "HF.DataBlock.C04_write",
    "HF.DataBlock.C04_write_read",
    "HF.DataBlock.C04_zero_refuted",
    "HF.DataBlock.C04_suffix_refuted",
    "HF.DataBlock.C04_not_a_matrix_refuted",
    "HF.DataBlock.C04_stale_refuted",
    "HF.DataBlock.C04_write_order_refuted"
   ],
   "note": ""
  },
  {
   "property": "C05",
   "status": "proved",
   "theorems": [
    "HF.Dim.C05_eq_characterisation",
    "HF.Dim.C05_eq_equivalence",
    "HF.Dim.C05_string_equality_not_transitive",
    "HF.Dim.C05_hash_contract",
    "HF.Dim.C05_hash_contract_iff",
    "HF.Dim.C05_hash_contract_refuted",
    "HF.Dim.C05_lt_defined",
    "HF.Dim.C05_lt_irrefl",
    "HF.Dim.C05_lt_asymm",
    "HF.Dim.C05_isSub_preorder",
    "HF.Dim.C05_indep_diag_roundtrip",
    "HF.Dim.C05_deriv_diag_roundtrip",
    "HF.Dim.C05_indep_deriv_roundtrip",
    "HF.Dim.C05_diag_of_both"
   ],
   "note": ""
  },
  {
   "property": "C06",
   "status": "proved",
   "theorems": [
    "HF.Arr.C06_axes_order",
    "HF.Arr.C06_matrix_last",
    "HF.Arr.C06_binop_aligns_by_name",
    "HF.Arr.C06_incompatible_rejected",
    "HF.Arr.C06_operands_addressed_directly",
    "HF.Arr.C06_result_dims_sorted",
    "HF.Arr.C06_axis_order_irrelevant",
    "HF.Arr.C06_commutative",
    "HF.Arr.C06_values_not_aligned_refuted",
    "HF.Arr.C06_subclass_sweep_refuted",
    "HF.Arr.C06_scalar"
   ],
   "note": ""
  },
  {
   "property": "C07",
   "status": "proved",
   "theorems": [
    "HF.Arr.C07_transpose",
    "HF.Arr.C07_transpose_rejects",
    "HF.Arr.C07_transpose_default",
    "HF.Arr.C07_reorder",
    "HF.Arr.C07_reorder_unknown",
    "HF.Arr.C07_reorder_inverse",
    "HF.Arr.C07_matrix_transpose",
    "HF.Arr.C07_matrix_transpose_none",
    "HF.Arr.C07_matrix_transpose_twice"
   ],
   "note": ""
  },
  {
   "property": "C08",
   "status": "proved",
   "theorems": [
    "HF.Arr.C08_all",
    "HF.Arr.C08_reduce_named",
    "HF.Arr.C08_sum_one",
    "HF.Arr.C08_class_axis",
    "HF.Arr.C08_unknown_axis",
    "HF.Arr.C08_negative_axis_refuted",
    "HF.Arr.C08_ddof_refuted"
   ],
   "note": ""
  },
  {
   "property": "C09",
   "status": "proved",
   "theorems": [
    "HF.Arr.C09_index",
    "HF.Arr.C09_scalar",
    "HF.Arr.C09_bad_index",
    "HF.Arr.C09_two_ellipses",
    "HF.Arr.C09_newaxis_refuted",
    "HF.Arr.C09_empty_axis_refuted",
    "HF.Arr.C09_list_index_refuted",
    "HF.Arr.C09_take_labels_refuted",
    "HF.Arr.C09_mask",
    "HF.Arr.C09_mask_positions",
    "HF.C09_slice_up",
    "HF.C09_slice_down",
    "HF.C09_slice_zero",
    "HF.C09_number"
   ],
   "note": ""
  },
  {
   "property": "C10",
   "status": "proved",
   "theorems": [
    "HF.Arr.C10_remove_rep",
    "HF.Arr.C10_numbering_bijective",
    "HF.Arr.C10_no_rep",
    "HF.Arr.C10_gap_rejected",
    "HF.Arr.C10_gap_dropped",
    "HF.Arr.C10_gap",
    "HF.Arr.C10_remove_tail"
   ],
   "note": ""
  },
  {
   "property": "C11",
   "status": "proved",
   "theorems": [
    "HF.Arr.C11_represents",
    "HF.Arr.C11_injective",
    "HF.Arr.C11_ring_hom",
    "HF.Arr.C11_real_refuted",
    "HF.Arr.C11_elementwise_product_refuted",
    "HF.Arr.C11_idempotent"
   ],
   "note": ""
  },
  {
   "property": "C12",
   "status": "proved",
   "theorems": [
    "HF.Hyper.C12_order",
    "HF.Hyper.C12_permutation",
    "HF.Hyper.C12_labels",
    "HF.Hyper.C12_labels_iff",
    "HF.Hyper.C12_labels_refuted",
    "HF.Hyper.C12_repeated_refuted"
   ],
   "note": ""
  },
  {
   "property": "C13",
   "status": "proved",
   "theorems": [
    "HF.DataBlock.C13_order",
    "HF.DataBlock.C13_yielded",
    "HF.DataBlock.C13_enumeration",
    "HF.DataBlock.C13_exact",
    "HF.DataBlock.C13_covered",
    "HF.DataBlock.C13_twice_refuted",
    "HF.DataBlock.C13_repeated_dim_refuted"
   ],
   "note": ""
  },
  {
   "property": "C14",
   "status": "proved",
   "theorems": [
    "HF.DataBlock.C14_names",
    "HF.DataBlock.C14_convert",
    "HF.DataBlock.C14_readable",
    "HF.DataBlock.C14_misread_refuted",
    "HF.DataBlock.C14_lost_refuted",
    "HF.DataBlock.C14_element_name_refuted"
   ],
   "note": ""
  },
  {
   "property": "C15",
   "status": "proved",
   "theorems": [
    "HF.Utils.C15_stable_uniq",
    "HF.Utils.C15_stable_uniq_first",
    "HF.Utils.C15_stable_uniq_fixed",
    "HF.Utils.C15_stable_uniq_idempotent",
    "HF.Utils.C15_uniq",
    "HF.Utils.C15_uniq_deterministic",
    "HF.Utils.C15_flatten",
    "HF.Utils.C15_flatten_flat",
    "HF.Utils.C15_flatten_append"
   ],
   "note": ""
  },
  {
   "property": "C16",
   "status": "proved",
   "theorems": [
    "HF.Units.C16_mantissa",
    "HF.Units.C16_engineering",
    "HF.Units.C16_prefix",
    "HF.Units.C16_yotta_refuted",
    "HF.Units.C16_read_back",
    "HF.Units.C16_read_back_refuted",
    "HF.Units.C16_rounding_refuted"
   ],
   "note": ""
  },
  {
   "property": "C17",
   "status": "proved",
   "theorems": [
    "HF.Units.C17_prefixed",
    "HF.Units.C17_plain",
    "HF.Units.C17_base",
    "HF.Units.C17_percent"
   ],
   "note": ""
  },
  {
   "property": "C18",
   "status": "proved",
   "theorems": [
    "HF.Touchstone.C18_records",
    "HF.Touchstone.C18_single_refuted",
    "HF.Touchstone.C18_noise",
    "HF.Touchstone.C18_noise_above_refuted",
    "HF.Touchstone.C18_split_refuted"
   ],
   "note": ""
  },
  {
   "property": "C19",
   "status": "proved",
   "theorems": [
    "HF.Touchstone.C19_roundtrip",
    "HF.Touchstone.C19_single_refuted",
    "HF.Touchstone.C19_transposed_refuted",
    "HF.Touchstone.C19_real_refuted",
    "HF.Touchstone.C19_descending_refuted"
   ],
   "note": ""
  },
  {
   "property": "C20",
   "status": "proved",
   "theorems": [
    "HF.Readers.C20_many",
    "HF.Readers.C20_many_at_end_refuted",
    "HF.Readers.C20_optional",
    "HF.Readers.C20_oneOf",
    "HF.Readers.C20_one",
    "HF.Readers.C20_rejected_token_lost_refuted",
    "HF.Readers.C20_expectEnd",
    "HF.Readers.C20_parser",
    "HF.Readers.C20_suffix"
   ],
   "note": ""
  },
  {
   "property": "C21",
   "status": "proved",
   "theorems": [
    "HF.Readers.Assemble.C21_groups",
    "HF.Readers.Assemble.C21_forms",
    "HF.Readers.Assemble.C21_assembled",
    "HF.Readers.Assemble.C21_incomplete",
    "HF.Readers.Assemble.C21_readback",
    "HF.Readers.Assemble.C21_gap_refuted",
    "HF.Readers.Assemble.C21_overwrite_refuted",
    "HF.Readers.Assemble.C21_named_i_refuted",
    "HF.Readers.Assemble.C21_type_refuted"
   ],
   "note": ""
  },
  {
   "property": "C22",
   "status": "proved",
   "theorems": [
    "HF.Citi.C22_order_refuted",
    "HF.Citi.C22_fewer_refuted",
    "HF.Citi.C22_empty_refuted",
    "HF.Citi.C22_ports_refuted",
    "HF.Citi.C22_nan_refuted",
    "HF.Citi.C22_columns",
    "HF.Citi.C22_roundtrip"
   ],
   "note": ""
  },
  {
   "property": "C23",
   "status": "proved",
   "theorems": [
    "HF.Mdif.C23_position",
    "HF.Mdif.C23_assembled",
    "HF.Mdif.C23_head",
    "HF.Mdif.C23_matrix",
    "HF.Mdif.C23_vector",
    "HF.Mdif.C23_partition",
    "HF.Mdif.C23_twice_refuted",
    "HF.Mdif.C23_zero_refuted",
    "HF.Mdif.C23_overwrite_refuted",
    "HF.Mdif.C23_shift_refuted",
    "HF.Mdif.C23_suffix_refuted",
    "HF.Mdif.C23_shortened_refuted",
    "HF.Mdif.C23_shorten",
    "HF.Mdif.C23_fixnames"
   ],
   "note": ""
  },
  {
   "property": "C24",
   "status": "proved",
   "theorems": [
    "HF.Readers.Normalize.C24_table",
    "HF.Readers.Normalize.C24_normalize",
    "HF.Readers.Normalize.C24_translate",
    "HF.Readers.Normalize.C24_translate_iff",
    "HF.Readers.Normalize.C24_clash_refuted",
    "HF.Readers.Normalize.C24_hidden_refuted",
    "HF.Readers.Normalize.C24_xvalue_refuted"
   ],
   "note": ""
  },
  {
   "property": "C25",
   "status": "proved",
   "theorems": [
    "HF.Config.C25_lookup",
    "HF.Config.C25_innermost",
    "HF.Config.C25_get_default",
    "HF.Config.C25_contains",
    "HF.Config.C25_list_refuted",
    "HF.Config.C25_list_element_refuted",
    "HF.Config.C25_empty_parent_refuted",
    "HF.Config.C25_copy",
    "HF.Config.C25_merged",
    "HF.Config.C25_merged_parent",
    "HF.Config.C25_merged_contains"
   ],
   "note": ""
  },
  {
   "property": "C26",
   "status": "proved",
   "theorems": [
    "HF.Hdf5.C26_roundtrip",
    "HF.Hdf5.C26_no_slash",
    "HF.Hdf5.C26_collision",
    "HF.Hdf5.C26_clash_refuted",
    "HF.Hdf5.C26_save_names",
    "HF.Hdf5.C26_slash_dim_refuted",
    "HF.Hdf5.C26_append_keeps",
    "HF.Hdf5.C26_append_history",
    "HF.Hdf5.C26_index_refuted",
    "HF.Hdf5.C26_failed_append_refuted",
    "HF.Hdf5.C26_backslash_append_refuted"
   ],
   "note": ""
  },
  {
   "property": "C27",
   "status": "proved",
   "theorems": [
    "HF.Networks.C27_unique",
    "HF.Networks.C27_same_network",
    "HF.Networks.C27_chain",
    "HF.Networks.C27_back",
    "HF.Networks.C27_exists",
    "HF.Networks.C27_impedance",
    "HF.Networks.C27_raw_refuted",
    "HF.Networks.C27_renormalise_refuted",
    "HF.Networks.C27_integer_refuted",
    "HF.Networks.C27_ports_refuted",
    "HF.Networks.C27_zy_ports"
   ],
   "note": ""
  },
  {
   "property": "C28",
   "status": "proved",
   "theorems": [
    "HF.Networks.C28_defined",
    "HF.Networks.C28_cascade",
    "HF.Networks.C28_assoc",
    "HF.Networks.C28_assoc_defined",
    "HF.Networks.C28_through",
    "HF.Networks.C28_through_net",
    "HF.Networks.C28_product",
    "HF.Networks.C28_chain",
    "HF.Networks.C28_rest_refuted",
    "HF.Networks.C28_real_refuted"
   ],
   "note": ""
  },
  {
   "property": "C29",
   "status": "proved",
   "theorems": [
    "HF.Networks.C29_left",
    "HF.Networks.C29_right",
    "HF.Networks.C29_left_cascade",
    "HF.Networks.C29_right_cascade",
    "HF.Networks.C29_both",
    "HF.Networks.C29_net",
    "HF.Networks.C29_isolated_refuted",
    "HF.Networks.C29_real_refuted"
   ],
   "note": ""
  },
  {
   "property": "C30",
   "status": "proved",
   "theorems": [
    "HF.Networks.C30_parameters_abcd",
    "HF.Networks.C30_parameters_other",
    "HF.Networks.C30_parameters_refuted",
    "HF.Networks.C30_impedance_refuted",
    "HF.Networks.C30_convert",
    "HF.Networks.C30_defined",
    "HF.Networks.C30_classes_refuted",
    "HF.Networks.C30_psd",
    "HF.Networks.C30_path",
    "HF.Networks.C30_passive_convert",
    "HF.Networks.C30_passive_refuted",
    "HF.Networks.C30_passive_psd"
   ],
   "note": ""
  },
  {
   "property": "C31",
   "status": "proved",
   "theorems": [
    "HF.Networks.C31_reciprocal",
    "HF.Networks.C31_reciprocal_fixed",
    "HF.Networks.C31_reciprocal_idem",
    "HF.Networks.C31_sign",
    "HF.Networks.C31_sign_refuted",
    "HF.Networks.C31_svd_passive",
    "HF.Networks.C31_svd_fixed",
    "HF.Networks.C31_svd_delta_refuted",
    "HF.Networks.C31_eig",
    "HF.Networks.C31_eig_refuted"
   ],
   "note": ""
  },
  {
   "property": "C32",
   "status": "proved",
   "theorems": [
    "HF.MathFns.C32_angle",
    "HF.MathFns.C32_angle_unique",
    "HF.MathFns.C32_angle_default",
    "HF.MathFns.C32_angle_deg",
    "HF.MathFns.C32_endpoint_refuted",
    "HF.MathFns.C32_unwrap",
    "HF.MathFns.C32_unwrap_deg",
    "HF.MathFns.C32_unwrap_recovers",
    "HF.MathFns.C32_unwrap_start",
    "HF.MathFns.C32_sqrt"
   ],
   "note": ""
  },
  {
   "property": "C33",
   "status": "proved",
   "theorems": [
    "HF.MathFns.C33_dB",
    "HF.MathFns.C33_product",
    "HF.MathFns.C33_monotone",
    "HF.MathFns.C33_mag_angle",
    "HF.MathFns.C33_dB_angle",
    "HF.MathFns.C33_rebuild"
   ],
   "note": ""
  },
  {
   "property": "C34",
   "status": "proved",
   "theorems": [
    "HF.MathFns.C34_window",
    "HF.MathFns.C34_window_size",
    "HF.MathFns.C34_window_symmetric",
    "HF.MathFns.C34_mean",
    "HF.MathFns.C34_constant",
    "HF.MathFns.C34_linear",
    "HF.MathFns.C34_window_even",
    "HF.MathFns.C34_even",
    "HF.MathFns.C34_even_refuted",
    "HF.MathFns.C34_integer_refuted",
    "HF.MathFns.C34_integer",
    "HF.MathFns.C34_axis_refuted",
    "HF.MathFns.C34_bounds",
    "HF.MathFns.C34_poly_length",
    "HF.MathFns.C34_poly_window",
    "HF.MathFns.C34_poly_last_refuted",
    "HF.MathFns.C34_poly_exact"
   ],
   "note": ""
  },
  {
   "property": "C35",
   "status": "proved",
   "theorems": [
    "HF.MathFns.C35_line",
    "HF.MathFns.C35_knots",
    "HF.MathFns.C35_linear",
    "HF.MathFns.C35_between",
    "HF.MathFns.C35_short",
    "HF.MathFns.C35_interpolate",
    "HF.MathFns.C35_descending_refuted"
   ],
   "note": ""
  },
  {
   "property": "C36",
   "status": "proved",
   "theorems": [
    "HF.MathFns.C36_linear",
    "HF.MathFns.C36_mids",
    "HF.MathFns.C36_integral",
    "HF.MathFns.C36_alias_refuted"
   ],
   "note": ""
  },
  {
   "property": "C37",
   "status": "proved",
   "theorems": [
    "HF.Smith.C37_R_arc",
    "HF.Smith.C37_X_arc",
    "HF.Smith.C37_G_arc",
    "HF.Smith.C37_G_order_refuted",
    "HF.Smith.C37_B_arc",
    "HF.Smith.C37_R_full",
    "HF.Smith.C37_R_upper",
    "HF.Smith.C37_R_lower",
    "HF.Smith.C37_G_full",
    "HF.Smith.C37_G_upper",
    "HF.Smith.C37_G_lower",
    "HF.Smith.C37_X_inf",
    "HF.Smith.C37_B_inf",
    "HF.Smith.C37_admittance",
    "HF.Smith.C37_R",
    "HF.Smith.C37_X",
    "HF.Smith.C37_G",
    "HF.Smith.C37_B",
    "HF.Smith.C37_X_zero",
    "HF.Smith.C37_B_zero_refuted"
   ],
   "note": ""
  },
  {
   "property": "C38",
   "status": "proved",
   "theorems": [
    "HF.Readers.Dispatch.C38_exclusive",
    "HF.Readers.Dispatch.C38_first_line",
    "HF.Readers.Dispatch.C38_none",
    "HF.Readers.Dispatch.C38_sp_iff",
    "HF.Readers.Dispatch.C38_hdf5",
    "HF.Readers.Dispatch.C38_first_file",
    "HF.Readers.Dispatch.C38_no_file",
    "HF.Readers.Dispatch.C38_priority_refuted",
    "HF.Readers.Dispatch.C38_mixed_refuted",
    "HF.Readers.Dispatch.C38_mdif_line",
    "HF.Readers.Dispatch.C38_touchstone_line",
    "HF.Readers.Dispatch.C38_signature_line"
   ],
   "note": ""
  },
  {
   "property": "C39",
   "status": "proved",
   "theorems": [
    "HF.Cache.C39_miss",
    "HF.Cache.C39_hit",
    "HF.Cache.C39_body_raises",
    "HF.Cache.C39_other_names",
    "HF.Cache.C39_stable",
    "HF.Cache.C39_read_once",
    "HF.Cache.C39_origin",
    "HF.Cache.C39_name",
    "HF.Cache.C39_collision_refuted",
    "HF.Cache.C39_failed_save_refuted"
   ],
   "note": ""
  },
  {
   "property": "C40",
   "status": "proved",
   "theorems": [
    "HF.Logger.C40_printed",
    "HF.Logger.C40_at_most_once",
    "HF.Logger.C40_on_iff",
    "HF.Logger.C40_app_untouched"
   ],
   "note": ""
  },
  {
   "property": "C41",
   "status": "proved",
   "theorems": [
    "HF.Utils.C41_sorted",
    "HF.Utils.C41_no_error",
    "HF.Utils.C41_numeric",
    "HF.Utils.C41_mixed_refuted"
   ],
   "note": ""
  },
  {
   "property": "C42",
   "status": "proved",
   "theorems": [
    "HF.Config.C42_split",
    "HF.Config.C42_roundtrip",
    "HF.Config.C42_tiny_refuted",
    "HF.Config.C42_negative_refuted"
   ],
   "note": ""
  },
  {
   "property": "C43",
   "status": "proved",
   "theorems": [
    "HF.Units.C43_value",
    "HF.Units.C43_exponent_refuted",
    "HF.Units.C43_signed_exponent_refuted",
    "HF.Units.C43_bracket_refuted"
   ],
   "note": ""
  },
  {
   "property": "C44",
   "status": "proved",
   "theorems": [
    "HF.Units.C44_prefixed",
    "HF.Units.C44_plain",
    "HF.Units.C44_metre_refuted",
    "HF.Units.C44_only"
   ],
   "note": ""
  },
  {
   "property": "C45",
   "status": "proved",
   "theorems": [
    "HF.DataBlock.C45_xname_toggles"
   ],
   "note": ""
  },
  {
   "property": "C46",
   "status": "proved",
   "theorems": [
    "HF.DataBlock.C46_values_witness_refuted",
    "HF.DataBlock.C46_values_places_refuted",
    "HF.DataBlock.C46_filter_mask",
    "HF.DataBlock.C46_unused_dim_refuted",
    "HF.DataBlock.C46_filter_values",
    "HF.DataBlock.C46_values_length_refuted",
    "HF.DataBlock.C46_values_unknown"
   ],
   "note": ""
  },
  {
   "property": "C47",
   "status": "proved",
   "theorems": [
    "HF.DataBlock.C47_short_array_refuted",
    "HF.DataBlock.C47_sort",
    "HF.DataBlock.C47_sorted",
    "HF.DataBlock.C47_unused_dim_refuted",
    "HF.DataBlock.C47_unknown"
   ],
   "note": ""
  },
  {
   "property": "C48",
   "status": "proved",
   "theorems": [
    "HF.Merge.C48_labels_refuted",
    "HF.Merge.C48_missing_refuted",
    "HF.Merge.C48_shared_variable_refuted",
    "HF.Merge.C48_shared_sweep_refuted",
    "HF.Merge.C48_families",
    "HF.Merge.C48_merge",
    "HF.Merge.C48_sweep",
    "HF.Merge.C48_no_partials_refuted"
   ],
   "note": ""
  },
  {
   "property": "C49",
   "status": "proved",
   "theorems": [
    "HF.DataBlock.C49_block",
    "HF.DataBlock.C49_oneport_refuted",
    "HF.Arr.C49_squeeze"
   ],
   "note": ""
  },
  {
   "property": "C50",
   "status": "proved",
   "theorems": [
    "HF.DataBlock.C50_axis_witness_refuted",
    "HF.DataBlock.C50_none",
    "HF.DataBlock.C50_missing",
    "HF.DataBlock.C50_absent",
    "HF.DataBlock.C50_unknown",
    "HF.DataBlock.C50_order_refuted",
    "HF.DataBlock.C50_axis_refuted",
    "HF.DataBlock.C50_linear",
    "HF.DataBlock.C50_linear_knots",
    "HF.DataBlock.C50_block"
   ],
   "note": ""
  },
  {
   "property": "C51",
   "status": "proved",
   "theorems": [
    "HF.Readers.Complex.C51_rest_refuted",
    "HF.Readers.Complex.C51_element_refuted",
    "HF.Readers.Complex.C51_names",
    "HF.Readers.Complex.C51_make_cplx"
   ],
   "note": ""
  },
  {
   "property": "C52",
   "status": "proved",
   "theorems": [
    "HF.Sp.C52_read",
    "HF.Sp.C52_header_mismatch",
    "HF.Sp.C52_short_row_refuted",
    "HF.Sp.C52_single_row_refuted",
    "HF.Sp.C52_exponent_refuted",
    "HF.Sp.C52_letter_row_refuted"
   ],
   "note": ""
  },
  {
   "property": "C53",
   "status": "proved",
   "theorems": [
    "HF.Comments.C53_plain",
    "HF.Comments.C53_unit",
    "HF.Comments.C53_declared",
    "HF.Comments.C53_other",
    "HF.Comments.C53_number_unit",
    "HF.Comments.C53_number_text",
    "HF.Comments.C53_signed_exponent_refuted",
    "HF.Comments.C53_exponent_refuted"
   ],
   "note": ""
  },
  {
   "property": "C54",
   "status": "proved",
   "theorems": [
    "HF.Arr.C54_expand",
    "HF.Arr.C54_expand_all",
    "HF.Arr.C54_expand_twice",
    "HF.Arr.C54_rejected",
    "HF.Arr.C54_matrix_refuted"
   ],
   "note": ""
  },
  {
   "property": "C55",
   "status": "proved",
   "theorems": [
    "HF.Arr.C55_cumulate",
    "HF.Arr.C55_cumsum",
    "HF.Arr.C55_rejected",
    "HF.Arr.C55_same_name_refuted",
    "HF.Arr.C55_add_dim",
    "HF.Arr.C55_add_dim_known",
    "HF.Arr.C55_add_dim_refuted"
   ],
   "note": ""
  },
  {
   "property": "C56",
   "status": "proved",
   "theorems": [
    "HF.Sp.C56_default_format_refuted",
    "HF.Sp.C56_roundtrip",
    "HF.Sp.C56_scalars_refuted",
    "HF.Sp.C56_dangling_refuted",
    "HF.Sp.C56_dangling_any_refuted",
    "HF.Sp.C56_ports_refuted"
   ],
   "note": ""
  },
  {
   "property": "C57",
   "status": "proved",
   "theorems": [
    "HF.Readers.FixUnit.C57_same_name_refuted",
    "HF.Readers.FixUnit.C57_dimension_name_refuted",
    "HF.Readers.FixUnit.C57_element_refuted",
    "HF.Readers.FixUnit.C57_dim_order_refuted",
    "HF.Readers.FixUnit.C57_title",
    "HF.Readers.FixUnit.C57_fix",
    "HF.Readers.FixUnit.C57_guess",
    "HF.Readers.FixUnit.C57_units"
   ],
   "note": ""
  },
  {
   "property": "C58",
   "status": "proved",
   "theorems": [
    "HF.Arr.MatEx.C58_nonsquare_labels_refuted",
    "HF.Arr.MatEx.C58_one_row_refuted",
    "HF.Arr.C58_product",
    "HF.Arr.C58_mismatch",
    "HF.Arr.C58_associative",
    "HF.Arr.C58_labels"
   ],
   "note": ""
  },
  {
   "property": "C59",
   "status": "proved",
   "theorems": [
    "HF.Arr.C59_det",
    "HF.Arr.C59_det_product",
    "HF.Arr.C59_inverse",
    "HF.Arr.C59_singular",
    "HF.Arr.C59_inverse_product",
    "HF.Arr.C59_solve",
    "HF.Arr.C59_solve_refused",
    "HF.Arr.C59_solve_squeezed",
    "HF.Arr.MatEx.C59_det_position_refuted"
   ],
   "note": ""
  },
  {
   "property": "C60",
   "status": "proved",
   "theorems": [
    "HF.Readers.Files.C60_blocks_refuted",
    "HF.Readers.Files.C60_square_refuted",
    "HF.Readers.Files.C60_files",
    "HF.Readers.Files.C60_one_file",
    "HF.Readers.Files.C60_all_or_nothing",
    "HF.Readers.Files.C60_unmerged_refuted",
    "HF.Readers.Files.C60_own"
   ],
   "note": ""
  },
  {
   "property": "C61",
   "status": "proved",
   "theorems": [
    "HF.Networks.C61_operator",
    "HF.Networks.C61_other_classes_refuted",
    "HF.Networks.C61_overwritten",
    "HF.Networks.C61_overwritten_refuted"
   ],
   "note": ""
  },
  {
   "property": "C62",
   "status": "proved",
   "theorems": [
    "HF.Networks.C62_named",
    "HF.Networks.C62_named_digits",
    "HF.Networks.C62_read",
    "HF.Networks.C62_write",
    "HF.Networks.C62_write_read",
    "HF.Networks.C62_unknown",
    "HF.Networks.C62_ports_refuted",
    "HF.Networks.C62_computed_refuted"
   ],
   "note": ""
  },
  {
   "property": "C63",
   "status": "proved",
   "theorems": [
    "HF.Mdif.C63_line",
    "HF.Mdif.C63_blank",
    "HF.Mdif.C63_blocks",
    "HF.Mdif.C63_misplaced",
    "HF.Mdif.C63_cases",
    "HF.Mdif.C63_truncated_refuted",
    "HF.Mdif.C63_generator_refuted",
    "HF.Mdif.C63_block",
    "HF.Mdif.C63_single_refuted",
    "HF.Mdif.C63_read",
    "HF.Mdif.C63_read_none",
    "HF.Mdif.C63_read_wrong",
    "HF.Mdif.C63_settings",
    "HF.Mdif.C63_settings_wrong",
    "HF.Mdif.C63_title",
    "HF.Mdif.C63_columns",
    "HF.Mdif.C63_surplus_refuted",
    "HF.Mdif.C63_twice_refuted",
    "HF.Mdif.C63_no_header_refuted"
   ],
   "note": ""
  },
  {
   "property": "C64",
   "status": "proved",
   "theorems": [
    "HF.Touchstone.C64_lines",
    "HF.Touchstone.C64_no_option",
    "HF.Touchstone.C64_second_option",
    "HF.Touchstone.C64_no_number",
    "HF.Touchstone.C64_read",
    "HF.Touchstone.C64_noise"
   ],
   "note": ""
  },
  {
   "property": "C65",
   "status": "proved",
   "theorems": [
    "HF.Citi.C65_unknown",
    "HF.Citi.C65_bad_data",
    "HF.Citi.C65_packages_refuted",
    "HF.Citi.C65_segments_refuted",
    "HF.Citi.C65_count_refuted",
    "HF.Citi.C65_comment_refuted",
    "HF.Citi.C65_time_refuted",
    "HF.Citi.C65_read"
   ],
   "note": ""
  },
  {
   "property": "C66",
   "status": "proved",
   "theorems": [
    "HF.Mdif.C66_no_attribute_refuted",
    "HF.Mdif.C66_coordinates_refuted",
    "HF.Mdif.C66_scalars_refuted",
    "HF.Mdif.C66_swapped_refuted",
    "HF.Mdif.C66_counted_refuted",
    "HF.Mdif.C66_complex_refuted",
    "HF.Mdif.C66_roundtrip"
   ],
   "note": ""
  },
  {
   "property": "C67",
   "status": "proved",
   "theorems": [
    "HF.Mdif.C67_files",
    "HF.Mdif.C67_grid_refuted",
    "HF.Mdif.C67_later_refuted",
    "HF.Mdif.C67_missing_refuted",
    "HF.Mdif.C67_name_refuted",
    "HF.Mdif.C67_nothing_refuted",
    "HF.Mdif.C67_refused",
    "HF.Mdif.C67_merge",
    "HF.Mdif.C67_saved"
   ],
   "note": ""
  },
  {
   "property": "C68",
   "status": "proved",
   "theorems": [
    "HF.Hyper.C68_size",
    "HF.Hyper.C68_errors",
    "HF.Hyper.C68_labels_refuted",
    "HF.Hyper.C68_repeated_refuted",
    "HF.Hyper.C68_order",
    "HF.Hyper.C68_cube"
   ],
   "note": ""
  },
  {
   "property": "C69",
   "status": "proved",
   "theorems": [
    "HF.Merge.C69_labels_refuted",
    "HF.Merge.C69_repeated_refuted",
    "HF.Merge.C69_hyper"
   ],
   "note": ""
  },
  {
   "property": "C70",
   "status": "proved",
   "theorems": [
    "HF.DataBlock.C70_block",
    "HF.Hyper.C70_back",
    "HF.Hyper.C70_order_refuted",
    "HF.Hyper.C70_some_refuted"
   ],
   "note": ""
  },
  {
   "property": "C71",
   "status": "proved",
   "theorems": [
    "HF.H5.C71_dispatch",
    "HF.H5.C71_unused_refuted",
    "HF.H5.C71_class_refuted",
    "HF.H5.C71_slash_refuted",
    "HF.H5.C71_backslash_refuted",
    "HF.H5.C71_clash_refuted",
    "HF.H5.C71_element_refuted",
    "HF.H5.C71_dims_refuted",
    "HF.H5.C71_format_refuted",
    "HF.H5.C71_roundtrip"
   ],
   "note": ""
  },
  {
   "property": "C72",
   "status": "proved",
   "theorems": [
    "HF.H5.C72_dispatch",
    "HF.H5.C72_class_refuted",
    "HF.H5.C72_slash_refuted",
    "HF.H5.C72_unit_refuted",
    "HF.H5.C72_dims_refuted",
    "HF.H5.C72_roundtrip"
   ],
   "note": ""
  },
  {
   "property": "C73",
   "status": "proved",
   "theorems": [
    "HF.Plot.C73_init_refuted",
    "HF.Plot.C73_percent_refuted",
    "HF.Plot.C73_power_refuted",
    "HF.Plot.C73_nolabel_refuted",
    "HF.Plot.C73_stale_refuted",
    "HF.Plot.C73_same_text_refuted",
    "HF.Plot.C73_label",
    "HF.Plot.C73_history",
    "HF.Plot.C73_ticks",
    "HF.Plot.C73_far"
   ],
   "note": ""
  },
  {
   "property": "C74",
   "status": "proved",
   "theorems": [
    "HF.Arr.MakeEx.C74_dtype_refuted",
    "HF.Arr.MakeEx.C74_empty_refuted",
    "HF.Arr.C74_elements",
    "HF.Arr.C74_mismatch",
    "HF.Arr.C74_det"
   ],
   "note": ""
  },
  {
   "property": "C75",
   "status": "proved",
   "theorems": [
    "HF.Arr.C75_switch",
    "HF.Arr.C75_singular",
    "HF.Arr.C75_waves"
   ],
   "note": ""
  },
  {
   "property": "C76",
   "status": "proved",
   "theorems": [
    "HF.Chop.C76_math",
    "HF.Chop.C76_utils",
    "HF.Chop.C76_idempotent",
    "HF.Chop.C76_rtol_refuted",
    "HF.Chop.C76_empty_refuted"
   ],
   "note": ""
  },
  {
   "property": "C77",
   "status": "proved",
   "theorems": [
    "HF.Readers.Treat.C77_units_refuted",
    "HF.Readers.Treat.C77_oneport_refuted",
    "HF.Readers.Treat.C77_elements_refuted",
    "HF.Readers.Treat.C77_roundtrip",
    "HF.Readers.Treat.C77_file",
    "HF.Readers.Treat.C77_properties"
   ],
   "note": ""
  },
  {
   "property": "C78",
   "status": "proved",
   "theorems": [
    "HF.Readers.Treat.C78_values",
    "HF.Readers.Treat.C78_order",
    "HF.Readers.Treat.C78_element_refuted"
   ],
   "note": ""
  },
  {
   "property": "C79",
   "status": "proved",
   "theorems": [
    "HF.Plot.Draw.C79_bytes_refuted",
    "HF.Plot.Draw.C79_bytes_projection_refuted",
    "HF.Plot.Draw.C79_names_refuted",
    "HF.Plot.Draw.C79_unit_refuted",
    "HF.Plot.Draw.C79_wrap_refuted",
    "HF.Plot.Draw.C79_history",
    "HF.Plot.Draw.C79_units",
    "HF.Plot.Draw.C79_projections",
    "HF.Plot.Draw.C79_sweep",
    "HF.Plot.Draw.C79_xy",
    "HF.Plot.Draw.C79_plane",
    "HF.Plot.Draw.C79_length",
    "HF.Plot.Draw.C79_matrix_refuted",
    "HF.Plot.Draw.C79_matrix_xy_refuted"
   ],
   "note": ""
  },
  {
   "property": "C80",
   "status": "proved",
   "theorems": [
    "HF.Config.C80_undefined",
    "HF.Config.C80_lookup",
    "HF.Config.C80_values",
    "HF.Config.C80_toplevel_refuted",
    "HF.Config.C80_not_mapping",
    "HF.Config.LoadEx.C80_alias_refuted"
   ],
   "note": ""
  },
  {
   "property": "C81",
   "status": "proved",
   "theorems": [
    "HF.Config.C81_tag",
    "HF.Config.C81_scalar",
    "HF.Config.C81_text_refuted",
    "HF.Config.C81_roundtrip",
    "HF.Config.C81_written",
    "HF.Config.C81_path_refuted"
   ],
   "note": ""
  },
  {
   "property": "C82",
   "status": "proved",
   "theorems": [
    "HF.Config.Clock.C82_next",
    "HF.Config.Clock.C82_unique",
    "HF.Config.Clock.C82_reload",
    "HF.Config.Clock.C82_range",
    "HF.Config.Clock.C82_int",
    "HF.Config.Clock.C82_sexagesimal"
   ],
   "note": ""
  },
  {
   "property": "C83",
   "status": "proved",
   "theorems": [
    "HF.Citi.C83_roundtrip",
    "HF.Citi.C83_read",
    "HF.Citi.C83_file",
    "HF.Citi.C83_both_refuted",
    "HF.Citi.C83_types_refuted",
    "HF.Citi.C83_one_port_refuted"
   ],
   "note": ""
  },
  {
   "property": "C84",
   "status": "proved",
   "theorems": [
    "HF.Touchstone.C84_roundtrip",
    "HF.Touchstone.C84_z0_refuted",
    "HF.Touchstone.C84_element_refuted",
    "HF.Touchstone.C84_read",
    "HF.Touchstone.C84_noise",
    "HF.Touchstone.C84_file"
   ],
   "note": ""
  },
  {
   "property": "C85",
   "status": "proved",
   "theorems": [
    "HF.Mdif.C85_roundtrip",
    "HF.Mdif.C85_read",
    "HF.Mdif.C85_axes_refuted"
   ],
   "note": ""
  },
  {
   "property": "C86",
   "status": "proved",
   "theorems": [
    "HF.Plot.Arrange.C86_single_refuted",
    "HF.Plot.Arrange.C86_heights_refuted",
    "HF.Plot.Arrange.C86_high_refuted",
    "HF.Plot.Arrange.C86_hidden_refuted",
    "HF.Plot.Arrange.C86_large_refuted",
    "HF.Plot.Arrange.C86_every",
    "HF.Plot.Arrange.C86_inside",
    "HF.Plot.Arrange.C86_ends",
    "HF.Plot.Arrange.C86_ends_iff",
    "HF.Plot.Arrange.C86_layers"
   ],
   "note": ""
  },
  {
   "property": "C87",
   "status": "proved",
   "theorems": [
    "HF.Arr.C87_least",
    "HF.Arr.C87_solve",
    "HF.Arr.C87_rows",
    "HF.Arr.C87_labels_refuted"
   ],
   "note": ""
  },
  {
   "property": "C88",
   "status": "proved",
   "theorems": [
    "HF.Config.Scalars.C88_metre_witness",
    "HF.Config.Scalars.C88_date_witness",
    "HF.Config.Scalars.C88_detect",
    "HF.Config.Scalars.C88_prefixed",
    "HF.Config.Scalars.C88_plain",
    "HF.Config.Scalars.C88_metre_refuted",
    "HF.Config.Scalars.C88_percent",
    "HF.Config.Scalars.C88_interval",
    "HF.Config.Scalars.C88_loads",
    "HF.Config.Scalars.C88_date",
    "HF.Config.Scalars.C88_date_refuted",
    "HF.Config.Scalars.C88_time"
   ],
   "note": ""
  },
  {
   "property": "C89",
   "status": "proved",
   "theorems": [
    "HF.DataBlock.Report.C89_empty_refuted",
    "HF.DataBlock.Report.C89_unit_refuted",
    "HF.DataBlock.Report.C89_range_refuted",
    "HF.DataBlock.Report.C89_integer_unit_refuted",
    "HF.DataBlock.Report.C89_width_refuted",
    "HF.DataBlock.Report.C89_report",
    "HF.DataBlock.Report.C89_fails_refuted",
    "HF.DataBlock.Report.C89_columns",
    "HF.DataBlock.Report.C89_lines",
    "HF.DataBlock.Report.C89_width"
   ],
   "note": ""
  },
  {
   "property": "C90",
   "status": "proved",
   "theorems": [
    "HF.Arr.C90_positions",
    "HF.Arr.C90_fresh",
    "HF.Arr.C90_mask",
    "HF.Arr.C90_select",
    "HF.Arr.C90_shape",
    "HF.Arr.C90_name_refuted",
    "HF.Arr.C90_set",
    "HF.Arr.C90_set_refuted"
   ],
   "note": ""
  },
  {
   "property": "C91",
   "status": "proved",
   "theorems": [
    "HF.Muwave.C91_foreign",
    "HF.Muwave.C91_foreign_refuted",
    "HF.Muwave.C91_type_refuted",
    "HF.Muwave.C91_no_index_refuted",
    "HF.Muwave.C91_number_refuted",
    "HF.Muwave.C91_frequencies_refuted",
    "HF.Muwave.C91_files_refuted",
    "HF.Muwave.C91_read",
    "HF.Muwave.C91_drop"
   ],
   "note": ""
  },
  {
   "property": "C92",
   "status": "proved",
   "theorems": [
    "HF.Smith.C92_impedances",
    "HF.Smith.C92_admittances",
    "HF.Smith.C92_smith",
    "HF.Smith.C92_inv_smith",
    "HF.Smith.C92_polar",
    "HF.Smith.C92_polar_outside",
    "HF.Smith.C92_smith_polar_refuted",
    "HF.Smith.C92_outline_refuted"
   ],
   "note": ""
  },
  {
   "property": "C93",
   "status": "proved",
   "theorems": [
    "HF.Share.C93_copy",
    "HF.Share.C93_one_side",
    "HF.Share.C93_copy_after",
    "HF.Share.C93_copy_array",
    "HF.Share.C93_copy_array_same",
    "HF.Share.C93_keep",
    "HF.Share.C93_filter",
    "HF.Share.C93_keep_refuted",
    "HF.Share.C93_filter_refuted",
    "HF.Share.C93_keep_dim_refuted",
    "HF.Share.C93_filter_shared_refuted",
    "HF.Share.C93_moved",
    "HF.Share.C93_wf",
    "HF.Share.C93_linked",
    "HF.Share.C93_sides",
    "HF.Share.C93_put",
    "HF.Share.C93_fill",
    "HF.Share.C93_element",
    "HF.Share.C93_remarks",
    "HF.Share.C93_own_remarks",
    "HF.Share.C93_no_remarks",
    "HF.Share.C93_view",
    "HF.Share.C93_view_form",
    "HF.Share.C93_view_values",
    "HF.Share.C93_view_comments",
    "HF.Share.C93_stored"
   ],
   "note": ""
  },
  {
   "property": "C94",
   "status": "proved",
   "theorems": [
    "HF.Plot.Ax.C94_ticks",
    "HF.Plot.Ax.C94_quantity_refuted",
    "HF.Plot.Ax.C94_db_refuted",
    "HF.Plot.Ax.C94_angle_refuted",
    "HF.Plot.Ax.C94_raises_refuted",
    "HF.Plot.Ax.C94_brace_refuted",
    "HF.Plot.Ax.C94_empty_refuted",
    "HF.Plot.Ax.C94_name_refuted",
    "HF.Plot.Ax.C94_stuck_refuted",
    "HF.Plot.Ax.C94_labels",
    "HF.Plot.Ax.C94_functions",
    "HF.Plot.Ax.C94_kept",
    "HF.Plot.Ax.C94_get"
   ],
   "note": ""
  },
  {
   "property": "C95",
   "status": "proved",
   "theorems": [
    "HF.Plot.Positions.C95_edge_refuted",
    "HF.Plot.Positions.C95_left_refuted",
    "HF.Plot.Positions.C95_closed_refuted",
    "HF.Plot.Positions.C95_get",
    "HF.Plot.Positions.C95_all",
    "HF.Plot.Positions.C95_set",
    "HF.Plot.Positions.C95_restore",
    "HF.Plot.Positions.C95_exact",
    "HF.Plot.Positions.C95_at_once"
   ],
   "note": ""
  },
  {
   "property": "C96",
   "status": "proved",
   "theorems": [
    "HF.Readers.Dispatch.C96_comment_refuted",
    "HF.Readers.Dispatch.C96_flat_refuted",
    "HF.Readers.Dispatch.C96_name_refuted",
    "HF.Readers.Dispatch.C96_sp_refuted",
    "HF.Readers.Dispatch.C96_touchstone",
    "HF.Readers.Dispatch.C96_citi",
    "HF.Readers.Dispatch.C96_mdif",
    "HF.Readers.Dispatch.C96_mdif_flat_refuted",
    "HF.Readers.Dispatch.C96_sp"
   ],
   "note": ""
  },
  {
   "property": "C97",
   "status": "proved",
   "theorems": [
    "HF.Plot.Polar.C97_same_refuted",
    "HF.Plot.Polar.C97_numpy_refuted",
    "HF.Plot.Polar.C97_complex",
    "HF.Plot.Polar.C97_real",
    "HF.Plot.Polar.C97_xy",
    "HF.Plot.Polar.C97_dims_refuted",
    "HF.Plot.Polar.C97_plain_refuted",
    "HF.Plot.Polar.C97_matrix_refuted",
    "HF.Plot.Polar.C97_nothing"
   ],
   "note": ""
  },
  {
   "property": "C98",
   "status": "proved",
   "theorems": [
    "HF.Readers.Dispatch.C98_newlines",
    "HF.Readers.Dispatch.C98_flat_refuted",
    "HF.Readers.Dispatch.C98_touchstone",
    "HF.Readers.Dispatch.C98_citi",
    "HF.Readers.Dispatch.C98_mdif",
    "HF.Readers.Dispatch.C98_sp",
    "HF.Readers.Dispatch.C98_mdif_flat_refuted"
   ],
   "note": ""
  },
  {
   "property": "C99",
   "status": "proved",
   "theorems": [
    "HF.Readers.Codec.C99_degree_refuted",
    "HF.Readers.Codec.C99_bytes",
    "HF.Readers.Codec.C99_complete",
    "HF.Readers.Codec.C99_own",
    "HF.Readers.Codec.C99_windows",
    "HF.Readers.Codec.C99_ascii",
    "HF.Readers.Codec.C99_failed",
    "HF.Readers.Codec.C99_config",
    "HF.Readers.Codec.C99_replace",
    "HF.Readers.Codec.C99_utf8_refuted",
    "HF.Readers.Codec.C99_unreadable_refuted",
    "HF.Readers.Codec.C99_sp_refuted"
   ],
   "note": ""
  },
  {
   "property": "C100",
   "status": "proved",
   "theorems": [
    "HF.Config.Session.C100_current",
    "HF.Config.Session.C100_reload",
    "HF.Config.Session.C100_new",
    "HF.Config.Session.C100_saved",
    "HF.Config.Session.C100_other_files",
    "HF.Config.Session.C100_protected",
    "HF.Config.Session.C100_missing",
    "HF.Config.Session.C100_accepted",
    "HF.Config.Session.C100_pairs",
    "HF.Config.Session.C100_new_failed",
    "HF.Config.Session.C100_emptied_refuted",
    "HF.Config.Session.C100_lost_refuted",
    "HF.Config.Session.C100_unreadable_refuted"
   ],
   "note": ""
  },
  {
   "property": "C101",
   "status": "proved",
   "theorems": [
    "HF.Networks.C101_order_refuted",
    "HF.Networks.C101_order_error_refuted",
    "HF.Networks.C101_exchanged_witness",
    "HF.Networks.C101_same_network",
    "HF.Networks.C101_class",
    "HF.Networks.C101_exists",
    "HF.Networks.C101_singular",
    "HF.Networks.C101_back"
   ],
   "note": ""
  },
  {
   "property": "C102",
   "status": "proved",
   "theorems": [
    "HF.Networks.C102_empty_witness",
    "HF.Networks.C102_cascade",
    "HF.Networks.C102_left",
    "HF.Networks.C102_right",
    "HF.Networks.C102_left_again",
    "HF.Networks.C102_right_again",
    "HF.Networks.C102_switch",
    "HF.Networks.C102_switch_singular",
    "HF.Networks.C102_network",
    "HF.Networks.C102_network_left",
    "HF.Networks.C102_network_right",
    "HF.Networks.C102_both",
    "HF.Networks.C102_network_both",
    "HF.Networks.C102_exists",
    "HF.Networks.C102_deembed_exists",
    "HF.Networks.C102_empty_refuted"
   ],
   "note": ""
  },
  {
   "property": "C103",
   "status": "proved",
   "theorems": [
    "HF.Networks.C103_same_network",
    "HF.Networks.C103_exists",
    "HF.Networks.C103_back",
    "HF.Networks.C103_same_class",
    "HF.Networks.C103_two_ports",
    "HF.Networks.C103_fails",
    "HF.Networks.C103_impedance_fails",
    "HF.Networks.C103_matched_refuted",
    "HF.Networks.C103_not_square"
   ],
   "note": ""
  },
  {
   "property": "C104",
   "status": "proved",
   "theorems": [
    "HF.DataBlock.C104_variables",
    "HF.DataBlock.C104_elements",
    "HF.DataBlock.C104_all",
    "HF.DataBlock.C104_ten_refuted",
    "HF.DataBlock.C104_digit_refuted",
    "HF.DataBlock.C104_large_refuted"
   ],
   "note": ""
  },
  {
   "property": "C105",
   "status": "proved",
   "theorems": [
    "HF.Stamp.C105_order",
    "HF.Stamp.C105_order_ms",
    "HF.Stamp.C105_same",
    "HF.Stamp.C105_length"
   ],
   "note": ""
  },
  {
   "property": "C106",
   "status": "proved",
   "theorems": [
    "HF.Readers.Table.C106_count",
    "HF.Readers.Table.C106_rows",
    "HF.Readers.Table.C106_aligned",
    "HF.Readers.Table.C106_short_refuted",
    "HF.Readers.Table.C106_printed"
   ],
   "note": ""
  },
  {
   "property": "C107",
   "status": "proved",
   "theorems": [
    "HF.Arr.C107_all",
    "HF.Arr.C107_value",
    "HF.Arr.C107_steps",
    "HF.Arr.C107_scale",
    "HF.Arr.C107_triangle",
    "HF.Arr.C107_zero",
    "HF.Arr.C107_refused"
   ],
   "note": ""
  },
  {
   "property": "C108",
   "status": "proved",
   "theorems": [
    "HF.Networks.C108_matrices",
    "HF.Networks.C108_same_network",
    "HF.Networks.C108_convert",
    "HF.Networks.C108_impedance_refuted",
    "HF.Networks.C108_elements",
    "HF.Networks.C108_columns",
    "HF.Networks.C108_impedance_witness"
   ],
   "note": ""
  },
  {
   "property": "C109",
   "status": "proved",
   "theorems": [
    "HF.Plot.Figures.C109_legend",
    "HF.Plot.Figures.C109_save",
    "HF.Plot.Figures.C109_save_refuted",
    "HF.Plot.Figures.C109_pdf",
    "HF.Plot.Figures.C109_name",
    "HF.Plot.Figures.C109_unfinished_refuted",
    "HF.Plot.Figures.C109_width",
    "HF.Plot.Figures.C109_width_back",
    "HF.Plot.Figures.C109_xtick",
    "HF.Plot.Figures.C109_ytick"
   ],
   "note": ""
  },
  {
   "property": "C110",
   "status": "proved",
   "theorems": [
    "HF.Networks.C110_through",
    "HF.Networks.C110_cascade",
    "HF.Networks.C110_deembed",
    "HF.Networks.C110_open",
    "HF.Networks.C110_class_refuted"
   ],
   "note": ""
  },
  {
   "property": "C111",
   "status": "proved",
   "theorems": [
    "HF.DataBlock.C111_key_refuted",
    "HF.DataBlock.C111_step",
    "HF.DataBlock.C111_history",
    "HF.DataBlock.C111_made",
    "HF.DataBlock.C111_value",
    "HF.DataBlock.C111_sweep",
    "HF.DataBlock.C111_second_refuted",
    "HF.DataBlock.C111_renamed_refuted"
   ],
   "note": ""
  },
  {
   "property": "C112",
   "status": "proved",
   "theorems": [
    "HF.Networks.C112_oneport",
    "HF.Networks.C112_twoport",
    "HF.Networks.C112_deembed",
    "HF.Networks.C112_lost_refuted",
    "HF.Networks.C112_defined",
    "HF.Networks.C112_third_refuted",
    "HF.Networks.C112_third_witness"
   ],
   "note": ""
  },
  {
   "property": "C113",
   "status": "proved",
   "theorems": [
    "HF.Config.Layers.C113_contains",
    "HF.Config.Layers.C113_layers",
    "HF.Config.Layers.C113_outer",
    "HF.Config.Layers.C113_shadow_refuted",
    "HF.Config.Layers.C113_list",
    "HF.Config.Layers.C113_keys",
    "HF.Config.Layers.C113_keys_refuted",
    "HF.Config.Layers.C113_copy",
    "HF.Config.Layers.C113_copy_refuted",
    "HF.Config.Layers.C113_empty_refuted",
    "HF.Config.Layers.C113_past",
    "HF.Config.Layers.C113_around_refuted"
   ],
   "note": ""
  },
  {
   "property": "C114",
   "status": "proved",
   "theorems": [
    "HF.Find.C114_in",
    "HF.Find.C114_find",
    "HF.Find.C114_name",
    "HF.Find.C114_name_refuted",
    "HF.Find.C114_other",
    "HF.Find.C114_index",
    "HF.Find.C114_index_refuted",
    "HF.Find.C114_derived"
   ],
   "note": ""
  },
  {
   "property": "C115",
   "status": "proved",
   "theorems": [
    "HF.Dirs.C115_made",
    "HF.Dirs.C115_again",
    "HF.Dirs.C115_blocked",
    "HF.Dirs.C115_join",
    "HF.Dirs.C115_schedule",
    "HF.Dirs.C115_race_refuted"
   ],
   "note": ""
  },
  {
   "property": "C116",
   "status": "proved",
   "theorems": [
    "HF.Saving.C116_saved",
    "HF.Saving.C116_raised",
    "HF.Saving.C116_killed",
    "HF.Saving.C116_old_refuted",
    "HF.Saving.C116_touchstone",
    "HF.Saving.C116_late_refuted",
    "HF.Saving.C116_thrown"
   ],
   "note": ""
  },
  {
   "property": "C117",
   "status": "proved",
   "theorems": [
    "HF.Make.C117_sound",
    "HF.Make.C117_dim",
    "HF.Make.C117_ignored_refuted",
    "HF.Make.C117_info_refuted",
    "HF.Make.C117_empty_refuted",
    "HF.Make.C117_array",
    "HF.Make.C117_copy",
    "HF.Make.C117_both",
    "HF.Make.C117_given",
    "HF.Make.C117_lengths_refuted",
    "HF.Make.C117_default"
   ],
   "note": ""
  },
  {
   "property": "C118",
   "status": "proved",
   "theorems": [
    "HF.Tags.C118_first",
    "HF.Tags.C118_linear",
    "HF.Tags.C118_product_refuted",
    "HF.Tags.C118_order_refuted",
    "HF.Tags.C118_reduce_refuted",
    "HF.Tags.C118_mean_refuted"
   ],
   "note": ""
  },
  {
   "property": "C119",
   "status": "proved",
   "theorems": [
    "HF.Handles.C119_open",
    "HF.Handles.C119_saved",
    "HF.Handles.C119_given",
    "HF.Handles.C119_mode_refuted",
    "HF.Handles.C119_held_refuted",
    "HF.Handles.C119_old_refuted",
    "HF.Handles.C119_read",
    "HF.Handles.C119_others"
   ],
   "note": ""
  },
  {
   "property": "C120",
   "status": "proved",
   "theorems": [
    "HF.Dates.C120_day",
    "HF.Dates.C120_moment",
    "HF.Dates.C120_time_refuted",
    "HF.Dates.C120_slash_refuted",
    "HF.Dates.C120_refines",
    "HF.Dates.C120_comment"
   ],
   "note": ""
  },
  {
   "property": "C121",
   "status": "proved",
   "theorems": [
    "HF.New.C121_default",
    "HF.New.C121_dims",
    "HF.New.C121_sweeps_refuted",
    "HF.New.C121_both"
   ],
   "note": ""
  }
 ]
}