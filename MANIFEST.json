{
 "claims": [
  {
   "property": "C01",
   "status": "proved",
   "theorems": [
    "FT.C01_forward_paths_exact",
    "FT.C01_forward_paths_once"
   ],
   "note": ""
  },
  {
   "property": "C02",
   "status": "proved",
   "theorems": [
    "FT.C02_entities_forward",
    "FT.C02_entities_backward",
    "FT.C02_backward_paths_exact",
    "FT.C02_unique_path_raises",
    "FT.C02_unique_path_true",
    "FT.C02_unique_path_false"
   ],
   "note": ""
  },
  {
   "property": "C03",
   "status": "proved",
   "theorems": [
    "FT.C03_forward_entities",
    "FT.C03_backward_entities",
    "FT.C03_deep_forward",
    "FT.C03_deep_backward",
    "FT.C03_deep_forward_terminates_iff",
    "FT.C03_deep_forward_cycle"
   ],
   "note": ""
  },
  {
   "property": "C04",
   "status": "partial",
   "theorems": [
    "FT.C04_schema_ok_partial",
    "FT.C04_add_relationship",
    "FT.C04_refused",
    "FT.C04_reused_id_violated",
    "FT.C04_add_relationships",
    "FT.C04_add_relationships_iff",
    "FT.C04_one_cannot_be_made",
    "FT.C04_no_relationships_violated"
   ],
   "note": "Proved for histories that do not reuse entity ids; creating an entity under an existing id breaks it (C04_reused_id_violated). add_relationship exact; add_relationships exact (C04_add_relationships_iff), but an empty list raises (C04_no_relationships_violated)."
  },
  {
   "property": "C05",
   "status": "partial",
   "theorems": [
    "FT.C05_metadata_fresh_partial",
    "FT.C05_read_only",
    "FT.C05_delete_violated",
    "FT.C05_convert_violated",
    "FT.C05_refused_relationship_violated"
   ],
   "note": "Proved for creating, normalising, successful relating and updating, descriptions; stale after deleting/converting variables on an entity and after a refused relationship (three violations proved)."
  },
  {
   "property": "C06",
   "status": "proved",
   "theorems": [
    "FT.C06_normalize",
    "FT.C06_one_parent",
    "FT.C06_join_back",
    "FT.C06_index_moved",
    "FT.C06_both",
    "FT.C06_accepted_iff"
   ],
   "note": ""
  },
  {
   "property": "C07",
   "status": "partial",
   "theorems": [
    "FT.C07_unique",
    "FT.C07_always_unique_partial",
    "FT.C07_make_index",
    "FT.C07_existing_column",
    "FT.C07_failure_unchanged_partial",
    "FT.C07_failure_sets_time_type",
    "FT.C07_failed_update_violated"
   ],
   "note": "Creation and make_index exact; a failing creation can set the time type (C07_failure_sets_time_type), a failing update_data leaves repeated index values (C07_failed_update_violated)."
  },
  {
   "property": "C08",
   "status": "proved",
   "theorems": [
    "FT.C08_query_exact",
    "FT.C08_query_values_as_set",
    "FT.C08_query_unknown_variable",
    "FT.C08_query_unknown_column"
   ],
   "note": ""
  },
  {
   "property": "C09",
   "status": "proved",
   "theorems": [
    "FT.C09_cutoff_exact",
    "FT.C09_cutoff_monotone",
    "FT.C09_missing_time_hidden",
    "FT.C09_no_time_index"
   ],
   "note": ""
  },
  {
   "property": "C10",
   "status": "proved",
   "theorems": [
    "FT.C10_window_exact",
    "FT.C10_window_monotone",
    "FT.C10_windows_tile",
    "FT.C10_window_observations_rejected"
   ],
   "note": ""
  },
  {
   "property": "C11",
   "status": "partial",
   "theorems": [
    "FT.C11_secondary_exact_partial",
    "FT.C11_chained_secondary_leaks",
    "FT.C11_secondary_at_cutoff_hidden"
   ],
   "note": "Exact when no secondary time column is itself governed by another secondary time index; the chained case leaks (C11_chained_secondary_leaks, proved)."
  },
  {
   "property": "C12",
   "status": "partial",
   "theorems": [
    "FT.C12_renewed_partial",
    "FT.C12_last_time_partial",
    "FT.C12_updated_partial",
    "FT.C12_unique",
    "FT.C12_terminates",
    "FT.C12_missing_time_violated",
    "FT.C12_two_relationships_violated",
    "FT.C12_before_1800_violated",
    "FT.C12_cycle_violated",
    "FT.C12_dask_last_time_partial",
    "FT.C12_dask_updated_partial",
    "FT.C12_dask_returns_iff",
    "FT.C12_dask_terminates",
    "FT.C12_dask_agrees_partial",
    "FT.C12_dask_pandas_differ_violated",
    "FT.C12_dask_duplicate_index_violated"
   ],
   "note": "Proved under Orderly: one relationship per pair of entities, times after 1800, and all or none of the child rows of a parent observed; without these and for cyclic schemas the claim is refuted (four C12_*_violated theorems). Termination is proved for schemas without cycles. The Dask branch is modelled apart (Model/LastTimeDask): there rows never observed do no harm, but index values must be distinct, which Dask entities do not check (C12_dask_duplicate_index_violated)."
  },
  {
   "property": "C13",
   "status": "partial",
   "theorems": [
    "FT.C13_concat_partial",
    "FT.C13_index_values_partial",
    "FT.C13_idempotent_partial",
    "FT.C13_refused",
    "FT.C13_made_index_violated"
   ],
   "note": "Proved for entities whose index was not made by make_index; concatenating two made indexes fails (C13_made_index_violated). Last time indexes after concat: C89."
  },
  {
   "property": "C14",
   "status": "partial",
   "theorems": [
    "FT.C14_equal_iff",
    "FT.C14_refl",
    "FT.C14_trans",
    "FT.C14_symm_partial",
    "FT.C14_symmetry_violated",
    "FT.C14_deep_data_violated",
    "FT.C14_deep_partial"
   ],
   "note": "Exact characterisation, reflexive and transitive; symmetric only with equally many relationships (C14_symmetry_violated); deep equality ignores cells of non-empty frames (C14_deep_data_violated)."
  },
  {
   "property": "C15",
   "status": "partial",
   "theorems": [
    "FT.C15_round_trip_partial",
    "FT.C15_name_violated",
    "FT.C15_boolean_values_violated",
    "FT.C15_secondary_order_violated"
   ],
   "note": "Proved for Describable entity sets (default names, default class parameters, registered types, sorted data, secondary time indexes only beside a time index); refuted for renamed variables, Boolean variables with own values, and secondary time indexes without a time index (three C15_*_violated theorems). The files themselves (csv, parquet, pickle) are a parameter: the frames read are those written."
  },
  {
   "property": "C16",
   "status": "partial",
   "theorems": [
    "FT.C16_fresh",
    "FT.C16_refused",
    "FT.C16_overwrite_partial",
    "FT.C16_overwrite_violated"
   ],
   "note": "Proved in full for directories without a saved entity set, and for saving over one whose files are not reused; refuted for saving over one in the same format (C16_overwrite_violated, for every encoding). The encodings are parameters: a description cut short cannot be parsed. Archives and S3 are not modelled."
  },
  {
   "property": "C17",
   "status": "partial",
   "theorems": [
    "FT.C17_first_difference_as_text",
    "FT.C17_current_silent",
    "FT.C17_first_difference_partial",
    "FT.C17_prefix_crashes",
    "FT.C17_compared_as_text",
    "FT.C17_missing_version"
   ],
   "note": "Numeric comparison proved when the first differing components have equally many digits; the code compares text (C17_compared_as_text) and crashes on a version that extends the other (C17_prefix_crashes)."
  },
  {
   "property": "C18",
   "status": "partial",
   "theorems": [
    "FT.C18_arguments_roundtrip",
    "FT.C18_negation",
    "FT.C18_documented_units",
    "FT.C18_single_unit_names_distinct",
    "FT.C18_names_distinct_partial",
    "FT.C18_names_collide",
    "FT.C18_offset_roundtrip_fails",
    "FT.C18_equality",
    "FT.C18_built",
    "FT.C18_no_observations"
   ],
   "note": "Round trip, negation, equality and single-unit names hold; multi-unit names collide on order/plural forms (C18_names_collide) and calendar-offset objects do not survive get_arguments (C18_offset_roundtrip_fails)."
  },
  {
   "property": "C19",
   "status": "proved",
   "theorems": [
    "FT.C19_parse_exact",
    "FT.C19_parse_written",
    "FT.C19_malformed_rejected",
    "FT.C19_parse_documented",
    "FT.C19_upper_case_rejected"
   ],
   "note": ""
  },
  {
   "property": "C20",
   "status": "proved",
   "theorems": [
    "FT.C20_read_last_assigned",
    "FT.C20_iteration_exact",
    "FT.C20_iteration_order",
    "FT.C20_iteration_once"
   ],
   "note": ""
  },
  {
   "property": "C21",
   "status": "proved",
   "theorems": [
    "FT.C21_deep_dependencies",
    "FT.C21_depth_zero",
    "FT.C21_depth_step"
   ],
   "note": ""
  },
  {
   "property": "C22",
   "status": "proved",
   "theorems": [
    "FT.C22_exactly_the_needed",
    "FT.C22_full_features",
    "FT.C22_marked_full",
    "FT.C22_order_independent"
   ],
   "note": ""
  },
  {
   "property": "C23",
   "status": "partial",
   "theorems": [
    "FT.C23_partition",
    "FT.C23_alike",
    "FT.C23_path_names",
    "FT.C23_one_group_per_key",
    "FT.C23_dependencies_first",
    "FT.C23_slice_of_aggregation_first",
    "FT.C23_multi_unit_windows_grouped"
   ],
   "note": "Partition, alikeness of single-unit windows and dependency order proved; a slice of a path feature breaks the order (C23_slice_of_aggregation_first) and multi-unit windows are put in one group (C23_multi_unit_windows_grouped)."
  },
  {
   "property": "C24",
   "status": "partial",
   "theorems": [
    "FT.C24_values_partial",
    "FT.C24_visible_data",
    "FT.C24_plain_partial",
    "FT.C24_slice_target_violated",
    "FT.C24_renamed_identity_error"
   ],
   "note": "Proved for every regular computation (Spec.Regular: names identify features, no name clash of computed columns with key or link columns, no slice targets, distinct base columns of direct features); outside it the code fails or differs (C24_renamed_identity_error, C28_condition_as_base_dropped, C29_same_base_twice_error). C24_plain_partial gives the same result from plain conditions on names and windows. A slice of a feature with several outputs cannot be calculated on its own (C24_slice_target_violated)."
  },
  {
   "property": "C25",
   "status": "partial",
   "theorems": [
    "FT.C25_no_leak_partial"
   ],
   "note": "Proved for all features and arbitrary plans when secondary time columns are not themselves governed by another secondary time index (chained case leaks, C11_chained_secondary_leaks); visibility includes the last_time_index test of training windows as documented."
  },
  {
   "property": "C26",
   "status": "partial",
   "theorems": [
    "FT.C26_other_instances_partial",
    "FT.C26_split_partial",
    "FT.C26_time_since_previous_violated"
   ],
   "note": "Proved for every regular computation (Spec.Regular: names identify features, no name clash of computed columns with key or link columns, no slice targets, distinct base columns of direct features); each instance visible; batches and order arbitrary. Primitives must say when they look at other rows: TimeSincePrevious does not (C26_time_since_previous_violated)."
  },
  {
   "property": "C27",
   "status": "partial",
   "theorems": [
    "FT.C27_rows_partial",
    "FT.C27_repeated_ids",
    "FT.C27_repeats_violated",
    "FT.C27_no_instances"
   ],
   "note": "Proved for every regular computation (Spec.Regular: names identify features, no name clash of computed columns with key or link columns, no slice targets, distinct base columns of direct features); unknown ids without repetition; repeated unknown ids raise (C27_repeats_violated), and if nothing is visible repeats are kept (C27_no_instances)."
  },
  {
   "property": "C28",
   "status": "partial",
   "theorems": [
    "FT.C28_group_partial",
    "FT.C28_rows_unchanged",
    "FT.C28_condition_as_base_dropped",
    "FT.C28_two_relationships_error"
   ],
   "note": "Proved for every regular computation (Spec.Regular: names identify features, no name clash of computed columns with key or link columns, no slice targets, distinct base columns of direct features); other rows/columns unchanged in general (C28_rows_unchanged); fails for a condition which is also a base and for deep paths with two relationships between one pair."
  },
  {
   "property": "C29",
   "status": "partial",
   "theorems": [
    "FT.C29_lookup_partial",
    "FT.C29_rows_unchanged",
    "FT.C29_same_base_twice_error"
   ],
   "note": "Proved for every regular computation (Spec.Regular: names identify features, no name clash of computed columns with key or link columns, no slice targets, distinct base columns of direct features); child rows kept in general (C29_rows_unchanged); two direct features with one base fail."
  },
  {
   "property": "C30",
   "status": "partial",
   "theorems": [
    "FT.C30_within_group_partial",
    "FT.C30_rows_unchanged"
   ],
   "note": "Proved for every regular computation (Spec.Regular: names identify features, no name clash of computed columns with key or link columns, no slice targets, distinct base columns of direct features); rows kept in general (C30_rows_unchanged)."
  },
  {
   "property": "C31",
   "status": "proved",
   "theorems": [
    "FT.C31_call_refused",
    "FT.C31_chunks_partition",
    "FT.C31_single_time_chunks",
    "FT.C31_zero_size_rejected",
    "FT.C31_chunk_size"
   ],
   "note": ""
  },
  {
   "property": "C32",
   "status": "partial",
   "theorems": [
    "FT.C32_table_partial",
    "FT.C32_single_partial",
    "FT.C32_completion_order",
    "FT.C32_approximate_partial",
    "FT.C32_unknown_instance_violated"
   ],
   "note": "Independence of the order in which workers finish is proved for all features, with and without approximation. Independence of chunk size and number of workers is proved for regular features without approximation; with approximation under the conditions of C34 (C32_approximate_partial). An unknown instance twice in one bin gives a matrix or an error depending on the chunks: C32_unknown_instance_violated."
  },
  {
   "property": "C33",
   "status": "partial",
   "theorems": [
    "FT.C33_table_partial",
    "FT.C33_single_partial",
    "FT.C33_all_instances_partial",
    "FT.C33_rejected",
    "FT.C33_missing_time_violated",
    "FT.C33_pass_name_violated",
    "FT.C33_single_is_table_partial"
   ],
   "note": "For regular features without approximation, rows with a time and passed columns whose names are not feature names; counterexamples for the excluded cases are proved."
  },
  {
   "property": "C34",
   "status": "partial",
   "theorems": [
    "FT.C34_plain_partial",
    "FT.C34_plain_now_partial",
    "FT.C34_single_is_table",
    "FT.C34_single_partial",
    "FT.C34_single_now_partial",
    "FT.C34_all_instances_partial",
    "FT.C34_values_partial",
    "FT.C34_values_now_partial",
    "FT.C34_direct_value",
    "FT.C34_exact_on_bins",
    "FT.C34_full_entity_violated",
    "FT.C34_multi_output_violated",
    "FT.C34_own_index_violated",
    "FT.C34_unknown_instance_violated",
    "FT.C34_pass_names_violated",
    "FT.C34_bin_is_floor",
    "FT.C34_bin_monotone_idempotent",
    "FT.C34_same_bin",
    "FT.C34_relative_rejected",
    "FT.C34_multi_unit_no_result",
    "FT.C34_integer_window_does_nothing"
   ],
   "note": "Binning proved for single absolute units; integer windows do not bin (C34_integer_window_does_nothing), multi-unit windows give no times (C34_multi_unit_no_result). The whole matrix is proved equal to the definition with the approximated aggregations looked up at the bin, for regular features with single-output aggregations (C34_values_partial); if every aggregation is approximated the rest is computed with all data there is now (C34_values_now_partial). C34_plain_partial and C34_plain_now_partial give the same from plain conditions on names, features and data, C34_single_partial, C34_single_now_partial and C34_all_instances_partial for a single cutoff time. Counterexamples for the excluded cases: C34_full_entity_violated, C34_multi_output_violated, C34_own_index_violated, C34_unknown_instance_violated, C34_pass_names_violated."
  },
  {
   "property": "C35",
   "status": "proved",
   "theorems": [
    "FT.C35_exactly_direct_aggregations",
    "FT.C35_never_on_target"
   ],
   "note": ""
  },
  {
   "property": "C36",
   "status": "partial",
   "theorems": [
    "FT.C36_complete",
    "FT.C36_all_saved_partial",
    "FT.C36_same_file",
    "FT.C36_afternoon_violated",
    "FT.C36_not_timestamp_violated"
   ],
   "note": "Every file is complete at every crash point (C36_complete); every chunk keeps its file unless two times agree on a 12-hour clock (C36_same_file is exact), which refutes the rest of the claim (C36_afternoon_violated, C36_not_timestamp_violated)."
  },
  {
   "property": "C37",
   "status": "proved",
   "theorems": [
    "FT.C37_workers",
    "FT.C37_workers_monotone"
   ],
   "note": ""
  },
  {
   "property": "C38",
   "status": "partial",
   "theorems": [
    "FT.C38_accepted_iff",
    "FT.C38_other_arguments",
    "FT.C38_time_type",
    "FT.C38_index_called_time"
   ],
   "note": "Full iff for entities whose index is not named time; proved to fail for an index named time (C38_index_called_time)."
  },
  {
   "property": "C39",
   "status": "proved",
   "theorems": [
    "FT.C39_returned",
    "FT.C39_selection",
    "FT.C39_types",
    "FT.C39_no_new_keys"
   ],
   "note": ""
  },
  {
   "property": "C40",
   "status": "partial",
   "theorems": [
    "FT.C40_max_depth_partial",
    "FT.C40_overshoot_partial",
    "FT.C40_condition_violated",
    "FT.C40_shortcut_violated",
    "FT.C40_outputs_violated"
   ],
   "note": "Violated by the code in three ways, each with a witness (conditions are not counted, features reached by a shortcut are used at any distance, slices of several outputs count one more). Proved: the bound without conditions and several outputs where chains of parents are shortest walks, and in general the bound with the exact overshoot allowed to direct features and conditions."
  },
  {
   "property": "C41",
   "status": "partial",
   "theorems": [
    "FT.C41_ignored",
    "FT.C41_target",
    "FT.C41_path_violated"
   ],
   "note": "Proved for every feature used at any depth and every column, where ignoring is by variable name and options of a primitive may include again. Violated for paths: the rows of an ignored entity still link others (witness)."
  },
  {
   "property": "C42",
   "status": "proved",
   "theorems": [
    "FT.C42_terminates",
    "FT.C42_visits"
   ],
   "note": ""
  },
  {
   "property": "C43",
   "status": "proved",
   "theorems": [
    "FT.C43_ordered",
    "FT.C43_repeating",
    "FT.C43_commutative",
    "FT.C43_replace_commutative_violated"
   ],
   "note": ""
  },
  {
   "property": "C44",
   "status": "partial",
   "theorems": [
    "FT.C44_transform",
    "FT.C44_check_stacking_partial",
    "FT.C44_aggregation",
    "FT.C44_base_of_exclude_violated"
   ],
   "note": "Proved for every input of every transform and aggregation feature used. base_of_exclude raises AttributeError (witness), so the theorem says the list is empty on anything stacked on."
  },
  {
   "property": "C45",
   "status": "proved",
   "theorems": [
    "FT.C45_where_stacking",
    "FT.C45_condition"
   ],
   "note": ""
  },
  {
   "property": "C46",
   "status": "partial",
   "theorems": [
    "FT.C46_variable_filter",
    "FT.C46_filter_matches",
    "FT.C46_skipped_entities",
    "FT.C46_respected_partial",
    "FT.C46_condition_violated"
   ],
   "note": "Proved for the inputs of every primitive at every depth, and the filters are exactly the predicates of Spec/Dfs. Conditions are not filtered (witness)."
  },
  {
   "property": "C47",
   "status": "partial",
   "theorems": [
    "FT.C47_used_partial",
    "FT.C47_report_partial",
    "FT.C47_names_violated",
    "FT.C47_case_violated"
   ],
   "note": "The report is exact where the names of the features that are used tell them apart (Spec.NamesTell), which the code does not ensure across entities (C47_names_violated) nor for primitives given as text in another case (C47_case_violated)."
  },
  {
   "property": "C48",
   "status": "partial",
   "theorems": [
    "FT.C48_roundtrip_partial",
    "FT.C48_stored_once",
    "FT.C48_loaded",
    "FT.C48_empty",
    "FT.C48_groupby_violated",
    "FT.C48_names_violated",
    "FT.C48_any_file",
    "FT.C48_damaged_refused"
   ],
   "note": "Round trip proved for features whose full names tell them apart and whose group-by feature is not also an input; C48_groupby_violated and C48_names_violated show both exceptions. json.dumps/json.loads are taken to be inverse to each other. Any file, also one not written by save_features: what loads is what the file says under the listed names, and files with missing or circular definitions are refused."
  },
  {
   "property": "C49",
   "status": "partial",
   "theorems": [
    "FT.C49_lookup_partial",
    "FT.C49_unknown",
    "FT.C49_requested",
    "FT.C49_roundtrip_partial",
    "FT.C49_arguments",
    "FT.C49_twice_violated",
    "FT.C49_true_violated"
   ],
   "note": "Round trip proved for classes that occur once among the subclasses and for arguments that Python's == does not confuse with a default; C49_twice_violated and C49_true_violated show the two exceptions. Copying of the class tree into the importable namespace is not modelled."
  },
  {
   "property": "C50",
   "status": "partial",
   "theorems": [
    "FT.C50_encoded_partial",
    "FT.C50_one_hot_partial",
    "FT.C50_missing_column",
    "FT.C50_names_violated",
    "FT.C50_drop_first_violated",
    "FT.C50_negative_violated"
   ],
   "note": "Exact where the names of the new columns are new (Spec.NewNamesApart), top_n is not negative and drop_first is not combined with a dict; C50_names_violated, C50_drop_first_violated, C50_negative_violated show the exceptions. str(label) and the order of labels are parameters."
  },
  {
   "property": "C51",
   "status": "partial",
   "theorems": [
    "FT.C51_low_information_partial",
    "FT.C51_highly_null_partial",
    "FT.C51_single_value",
    "FT.C51_boundary_violated",
    "FT.C51_outputs_violated"
   ],
   "note": "What each function keeps is proved exactly. Two parts of the documented behaviour fail: a column whose null share equals the threshold is removed (C51_boundary_violated), and remove_low_information_features drops features with several outputs whose columns stay (C51_outputs_violated). Shares are exact fractions, not floats."
  },
  {
   "property": "C52",
   "status": "partial",
   "theorems": [
    "FT.C52_correlated",
    "FT.C52_result",
    "FT.C52_order_violated"
   ],
   "note": "Proved for the order of features_to_check; if that differs from the order of the matrix the column further left may go (C52_order_violated). Series.corr and select_dtypes are parameters."
  },
  {
   "property": "C53",
   "status": "proved",
   "theorems": [
    "FT.C53_cum_sum",
    "FT.C53_cum_count",
    "FT.C53_cum_mean",
    "FT.C53_cum_min",
    "FT.C53_cum_max",
    "FT.C53_diff",
    "FT.C53_inverse"
   ],
   "note": ""
  },
  {
   "property": "C54",
   "status": "proved",
   "theorems": [
    "FT.C54_num_unique",
    "FT.C54_num_true",
    "FT.C54_percent_true",
    "FT.C54_any",
    "FT.C54_all"
   ],
   "note": ""
  },
  {
   "property": "C55",
   "status": "partial",
   "theorems": [
    "FT.C55_num_unique",
    "FT.C55_booleans",
    "FT.C55_percent_true",
    "FT.C55_mode",
    "FT.C55_n_most_common",
    "FT.C55_first_last",
    "FT.C55_avg_time_between",
    "FT.C55_time_since",
    "FT.C55_time_since_sorted",
    "FT.C55_trend_partial",
    "FT.C55_trend_unit_violated"
   ],
   "note": "Trend is the least squares slope, but per a unit of time that depends on the first row (C55_trend_unit_violated). Median, Skew, Std, Entropy, Min, Max, Sum, Mean and Count are C68."
  },
  {
   "property": "C56",
   "status": "partial",
   "theorems": [
    "FT.C56_interesting_partial",
    "FT.C56_entity_partial",
    "FT.C56_categories_violated"
   ],
   "note": "Columns of dtype category are left out: categories that do not occur become interesting values (C56_categories_violated)."
  },
  {
   "property": "C57",
   "status": "partial",
   "theorems": [
    "FT.C57_only_number_daily",
    "FT.C57_window_and_number",
    "FT.C57_number_and_start",
    "FT.C57_window_and_start",
    "FT.C57_cutoff_missing",
    "FT.C57_wrong_parameters",
    "FT.C57_only_number_accepted",
    "FT.C57_all_instances",
    "FT.C57_all_instances_start"
   ],
   "note": "Window+number and number+start exact; window+start does not reach the cutoff in general (C57_cutoff_missing) and a lone number is accepted (C57_only_number_accepted)."
  },
  {
   "property": "C58",
   "status": "partial",
   "theorems": [
    "FT.C58_columns",
    "FT.C58_type_partial",
    "FT.C58_other_columns_partial",
    "FT.C58_carry_over_violated",
    "FT.C58_sample_violated"
   ],
   "note": "For columns of at most 10000 rows that have rows or a dtype with a type of its own; C58_carry_over_violated and C58_sample_violated show the exceptions."
  },
  {
   "property": "C59",
   "status": "partial",
   "theorems": [
    "FT.C59_convert_value",
    "FT.C59_ordinal",
    "FT.C59_convert_units",
    "FT.C59_unknown_unit",
    "FT.C59_units_consistent",
    "FT.C59_year_not_twelve_months"
   ],
   "note": "Ordinals exact; time units consistent up to days, but a year is not twelve months (C59_year_not_twelve_months)."
  },
  {
   "property": "C60",
   "status": "partial",
   "theorems": [
    "FT.C60_approximate_partial",
    "FT.C60_row_partial",
    "FT.C60_table_partial",
    "FT.C60_single_partial",
    "FT.C60_all_instances_partial",
    "FT.C60_approximate_violated"
   ],
   "note": "Proved for calls without approximation where no secondary time index hides another one or a key column, and with approximation when some aggregation is not approximated (C60_approximate_partial, for data sets that show the same at the cutoff and at its bin). If all aggregations are approximated the claim is false: C60_approximate_violated. C60_all_instances_partial: the same when no instances are given."
  },
  {
   "property": "C61",
   "status": "partial",
   "theorems": [
    "FT.C61_columns",
    "FT.C61_seeds",
    "FT.C61_returned_built",
    "FT.C61_built_returned",
    "FT.C61_built_columns",
    "FT.C61_aggregation_partial",
    "FT.C61_where_partial",
    "FT.C61_transform_partial",
    "FT.C61_groupby_partial",
    "FT.C61_direct_partial",
    "FT.C61_order_violated",
    "FT.C61_groupby_violated"
   ],
   "note": "Proved for primitives without options of their own, inputs that are features of one output or outputs of features of several (for transforms: of aggregations), and descendants sure to be visited (children, or any descendant without limits on depth and paths). Missing: user options, grandchildren under a depth limit in tree schemas. In general the claim is false: C61_order_violated (features found depend on the order of relationships), C61_groupby_violated (no grouping by a parent's feature)."
  },
  {
   "property": "C62",
   "status": "partial",
   "theorems": [
    "FT.C62_builds",
    "FT.C62_value",
    "FT.C62_type",
    "FT.C62_meaning"
   ],
   "note": "Proved for complete boolean columns and for scalars that are not text in arithmetic and comparisons by order. Missing: booleans with missing values (objects; C63_missing_violated shows what they do), text operands that raise. Numbers are exact fractions with two infinities, not floats."
  },
  {
   "property": "C63",
   "status": "partial",
   "theorems": [
    "FT.C63_commutative_partial",
    "FT.C63_subtract_violated",
    "FT.C63_missing_violated"
   ],
   "note": "Proved for every primitive marked as commutative except SubtractNumeric and DivideNumeric(commutative=True), and And and Or with missing booleans: C63_subtract_violated, C63_missing_violated."
  },
  {
   "property": "C64",
   "status": "partial",
   "theorems": [
    "FT.C64_text",
    "FT.C64_names_partial",
    "FT.C64_grouping_violated",
    "FT.C64_scalar_violated"
   ],
   "note": "The text is proved for all expressions without group-by features. That names identify features is proved for at most one operator; false in general: C64_grouping_violated (no parentheses), C64_scalar_violated (text scalars are not quoted)."
  },
  {
   "property": "C65",
   "status": "partial",
   "theorems": [
    "FT.C65_template",
    "FT.C65_reads_partial",
    "FT.C65_described_partial",
    "FT.C65_condition_violated",
    "FT.C65_conditionFails_violated",
    "FT.C65_braces_violated",
    "FT.C65_empty_violated",
    "FT.C65_emptyInput_violated",
    "FT.C65_key_violated",
    "FT.C65_groupOutput_violated",
    "FT.C65_directOutput_violated",
    "FT.C65_chain_violated"
   ],
   "note": "Proved for all features whose conditions compare with a scalar, slices of aggregations and transforms, and dictionaries whose descriptions are not empty and whose keys tell features apart. False otherwise: eight C65_..._violated theorems (conditions other than equality share a description; comparisons of two features and boolean columns as conditions fail; braces in scalars; empty custom descriptions; keys; slices of group-by and direct features; custom descriptions inside a chain of parents)."
  },
  {
   "property": "C66",
   "status": "partial",
   "theorems": [
    "FT.C66_date",
    "FT.C66_cellwise",
    "FT.C66_clock",
    "FT.C66_weekday",
    "FT.C66_weekend",
    "FT.C66_week",
    "FT.C66_week_violated",
    "FT.C66_time_since_previous",
    "FT.C66_time_since",
    "FT.C66_age",
    "FT.C66_characters",
    "FT.C66_words_partial",
    "FT.C66_words_violated",
    "FT.C66_isin",
    "FT.C66_pointwise",
    "FT.C66_percentile",
    "FT.C66_percentile_range",
    "FT.C66_percentile_order",
    "FT.C66_latlong_partial",
    "FT.C66_latlong_error",
    "FT.C66_latlong_violated"
   ],
   "note": "Calendar parts, elapsed times, ages, characters, IsIn, pointwise primitives and percentiles are exact. Words are proved for texts with single spaces (C66_words_violated shows the others), coordinates for rows labelled 0, 1, ... (C66_latlong_violated), and the week is the ISO week, not the documented one (C66_week_violated). Numbers are exact fractions, datetimes have no time zone."
  },
  {
   "property": "C67",
   "status": "partial",
   "theorems": [
    "FT.C67_unit",
    "FT.C67_distance_partial",
    "FT.C67_error",
    "FT.C67_labels_violated",
    "FT.C67_symmetric",
    "FT.C67_metric",
    "FT.C67_name"
   ],
   "note": "Exact over real numbers for rows labelled 0, 1, ...; other labels raise TypeError for a missing pair (C67_error, C67_labels_violated). Symmetry, metric laws, units and names are proved without that condition. Rounding is not modelled."
  },
  {
   "property": "C68",
   "status": "partial",
   "theorems": [
    "FT.C68_count",
    "FT.C68_sum",
    "FT.C68_mean",
    "FT.C68_mean_none",
    "FT.C68_mean_skipna_violated",
    "FT.C68_mean_backends_partial",
    "FT.C68_min_max",
    "FT.C68_median",
    "FT.C68_median_best",
    "FT.C68_std_partial",
    "FT.C68_std_violated",
    "FT.C68_std_order",
    "FT.C68_skew",
    "FT.C68_skew_none",
    "FT.C68_entropy",
    "FT.C68_entropy_bounds"
   ],
   "note": "Exact over fractions and real numbers; rounding is not modelled. Std is two statistics: C68_std_violated (called directly it divides by n, in a feature matrix by n-1); Mean(skipna=False) skips missing cells with Dask and Koalas: C68_mean_skipna_violated."
  },
  {
   "property": "C69",
   "status": "partial",
   "theorems": [
    "FT.C69_python_call",
    "FT.C69_time",
    "FT.C69_uses_calc_time",
    "FT.C69_attributes_agg",
    "FT.C69_attributes_trans",
    "FT.C69_name",
    "FT.C69_default_value",
    "FT.C69_call_partial",
    "FT.C69_default_column",
    "FT.C69_constructor",
    "FT.C69_default_column_violated",
    "FT.C69_default_value_violated",
    "FT.C69_attributes_violated",
    "FT.C69_arguments_lost",
    "FT.C69_saved_kind",
    "FT.C69_saved_violated",
    "FT.C69_unknown_keyword"
   ],
   "note": "Proved for functions whose column parameters have no default; the others cannot be called (C69_default_column, C69_default_column_violated). Keyword arguments reach neither the name nor the saved form (C69_arguments_lost, C69_saved_violated) nor the default value (C69_default_value_violated); class attributes that are also arguments are lost (C69_attributes_violated). *args and **kwargs in functions and constructors among the class attributes are not modelled."
  },
  {
   "property": "C70",
   "status": "partial",
   "theorems": [
    "FT.C70_own_columns_partial",
    "FT.C70_no_condition",
    "FT.C70_two_counts_violated",
    "FT.C70_condition_violated"
   ],
   "note": "Proved unless one input is counted by two features of a pass (C70_two_counts_violated: the first one gets no column) or a condition is one of two inputs (C70_condition_violated: the function is called with one column). Dask and Koalas, where every function is passed by its name, are not modelled."
  },
  {
   "property": "C71",
   "status": "partial",
   "theorems": [
    "FT.C71_transparent_partial",
    "FT.C71_told_partial",
    "FT.C71_never_made_up",
    "FT.C71_on_call_violated",
    "FT.C71_on_return_violated",
    "FT.C71_on_error_violated",
    "FT.C71_interrupt_violated",
    "FT.C71_star_violated"
   ],
   "note": "Proved for handlers that do not raise and leave the program's objects alone; for all others, that the function runs at most once with the given arguments and that no value is made up (C71_never_made_up). A handler that raises stops the call, loses the result or replaces the exception (C71_on_call_violated, C71_on_return_violated, C71_on_error_violated); interrupts are not reported (C71_interrupt_violated); of *args one object is reported (C71_star_violated)."
  },
  {
   "property": "C72",
   "status": "partial",
   "theorems": [
    "FT.C72_rows_partial",
    "FT.C72_lines_partial",
    "FT.C72_reaches_target_partial",
    "FT.C72_nothing_else_partial",
    "FT.C72_diamonds_partial",
    "FT.C72_boxes_partial",
    "FT.C72_steps_partial",
    "FT.C72_order_partial",
    "FT.C72_table_partial",
    "FT.C72_step_zero_violated",
    "FT.C72_order_violated",
    "FT.C72_shared_diamond_violated",
    "FT.C72_names_violated"
   ],
   "note": "Rows, lines, diamonds and tables proved where entity and name tell the features apart (C72_names_violated otherwise); that nothing else leads to a feature also needs names that differ between entities (C72_shared_diamond_violated). Steps start at 1 unless something is grouped by a calculated feature (C72_step_zero_violated) and respect the order of calculation unless a feature is used at two distances (C72_order_violated). Texts of nodes are taken not to coincide otherwise; drawing and captions are not modelled."
  },
  {
   "property": "C73",
   "status": "partial",
   "theorems": [
    "FT.C73_unchanged",
    "FT.C73_reports",
    "FT.C73_failed_partial",
    "FT.C73_counts_rows_partial",
    "FT.C73_failed_violated"
   ],
   "note": "That a callback changes nothing, that reports add up and never go back, and that successful calls report 100 percent once and last is proved for all calls; that failing calls stay at or below 95 percent except for parallel calls with approximate (C73_failed_violated: 190 percent, then an error). C73_counts_rows_partial: without approximate the updates but the last add up to exactly 95 percent of the rows that have a time (in one process: if the columns of the features are new). Exact numbers instead of floats; the elapsed time is not modelled; the number of columns made by one call of agg is a parameter (at most one for each feature)."
  },
  {
   "property": "C74",
   "status": "partial",
   "theorems": [
    "FT.C74_direct",
    "FT.C74_direct_ambiguous",
    "FT.C74_direct_given",
    "FT.C74_agg",
    "FT.C74_agg_path",
    "FT.C74_agg_ambiguous",
    "FT.C74_not_a_feature",
    "FT.C74_bases_rejected",
    "FT.C74_agg_given_partial",
    "FT.C74_trans",
    "FT.C74_groupby",
    "FT.C74_slice_partial",
    "FT.C74_feature",
    "FT.C74_given_path_violated",
    "FT.C74_window_violated",
    "FT.C74_inputs_violated",
    "FT.C74_groupby_list_violated",
    "FT.C74_slice_violated",
    "FT.C74_loaded_violated",
    "FT.C74_ignored_violated"
   ],
   "note": "Acceptance is characterised exactly for every class; ambiguous requests are refused. The property fails in places: paths that are given are checked at their ends only (C74_given_path_violated), inputs only as far as the shorter list goes (C74_inputs_violated), windows on numeric time indexes always fail (C74_window_violated), negative columns pass (C74_slice_violated), the list given to a group-by feature is changed (C74_groupby_list_violated), features read from a file cannot be used with others (C74_loaded_violated), arguments that do not apply are dropped (C74_ignored_violated)."
  },
  {
   "property": "C75",
   "status": "partial",
   "theorems": [
    "FT.C75_read",
    "FT.C75_starts",
    "FT.C75_options_apply",
    "FT.C75_unknown",
    "FT.C75_kind",
    "FT.C75_ignored",
    "FT.C75_faulty",
    "FT.C75_counts",
    "FT.C75_twice",
    "FT.C75_where_kind_violated",
    "FT.C75_option_name_violated",
    "FT.C75_message_violated",
    "FT.C75_case_violated"
   ],
   "note": "Acceptance and meaning are characterised exactly (C75_read), for libraries whose names differ in lower case; otherwise the class a text stands for depends on the order of a set (C75_case_violated). Names in primitive_options are not checked and not lowered (C75_option_name_violated), the kind of where primitives is not checked (C75_where_kind_violated), and an unknown option of a primitive given as a class is reported by a TypeError about the message (C75_message_violated). Data in pandas; warnings are left out."
  },
  {
   "property": "C76",
   "status": "partial",
   "theorems": [
    "FT.C76_type_string",
    "FT.C76_camel_case",
    "FT.C76_found",
    "FT.C76_found_one",
    "FT.C76_listed",
    "FT.C76_given",
    "FT.C76_reloaded",
    "FT.C76_reloaded_like",
    "FT.C76_builtin",
    "FT.C76_plain_variable_violated",
    "FT.C76_same_string_violated",
    "FT.C76_own_text_violated"
   ],
   "note": "Proved where type strings differ, which they do for the library's classes (C76_builtin) and for any names in camel case without two capitals in a row (C76_camel_case). Otherwise the class that is found last wins (C76_same_string_violated: IpAddress replaces IPAddress in files). Variables of type Variable come back as Unknown (C76_plain_variable_violated), those of a class of the user named Text as the library's (C76_own_text_violated). Names are ASCII."
  },
  {
   "property": "C77",
   "status": "partial",
   "theorems": [
    "FT.C77_listed",
    "FT.C77_files",
    "FT.C77_files_each",
    "FT.C77_files_here_partial",
    "FT.C77_loaded",
    "FT.C77_defined_partial",
    "FT.C77_registered",
    "FT.C77_registered_offered",
    "FT.C77_directories_violated",
    "FT.C77_imports_violated",
    "FT.C77_entry_points_violated",
    "FT.C77_empty_name_violated"
   ],
   "note": "The list is proved complete for libraries whose names differ in lower case. Files: whether a name is a directory is looked up where the program runs (C77_directories_violated); imported primitive classes count as defined (C77_imports_violated); in the list of an entry point everything after something that is no class is lost, and names of the library can be replaced (C77_entry_points_violated); a path ending with / is an IndexError (C77_empty_name_violated). What running a file leaves in its module is a parameter."
  },
  {
   "property": "C78",
   "status": "partial",
   "theorems": [
    "FT.C78_values_partial",
    "FT.C78_same_as_pandas_partial",
    "FT.C78_nothing_asked_partial",
    "FT.C78_window_refused",
    "FT.C78_no_instances",
    "FT.C78_num_unique",
    "FT.C78_unknown_violated",
    "FT.C78_index_feature_violated",
    "FT.C78_groupby_violated",
    "FT.C78_full_entity_violated",
    "FT.C78_full_at_root_partial",
    "FT.C78_several_columns_violated"
   ],
   "note": "Proved for every arrangement that keeps the rows and every aggregation whose Dask version agrees with the primitive (C78_values_partial, C78_same_as_pandas_partial; C78_num_unique is an instance). Unknown ids get no row although pandas gives a row of defaults (C78_unknown_violated); a direct feature of the parent's index is a KeyError (C78_index_feature_violated); group-by features and aggregations of features that need the full entity are refused (C78_groupby_violated, C78_full_entity_violated), aggregations of several columns are a TypeError (C78_several_columns_violated), training windows a ValueError (C78_window_refused). Features of the full entity at the target are shown by an example only (C78_full_at_root_partial). use_previous in observations, divisions, dtypes and the scheduler are not modelled."
  },
  {
   "property": "C79",
   "status": "partial",
   "theorems": [
    "FT.C79_approximate_partial",
    "FT.C79_approximate_now_partial",
    "FT.C79_approximate_single_partial",
    "FT.C79_approximate_full_entity_violated",
    "FT.C79_wellformed_partial",
    "FT.C79_table_partial",
    "FT.C79_single_partial",
    "FT.C79_all_instances_partial",
    "FT.C79_features",
    "FT.C79_reading",
    "FT.C79_slice_violated"
   ],
   "note": "Proved for all schemas and arguments, with seed features that can be computed themselves (SeedsComputable), without approximation or with it (C79_approximate_partial, C79_approximate_now_partial; not if a feature computed on a full entity needs features of the entity of an approximated one: C79_approximate_full_entity_violated) and without windows of a number of rows, if columns have different names (NamesApart), the data have proper keys (DataFor) and primitives give what they declare (PrimsOk). Excluded because the code fails there: transforms of one output of an aggregation with several (C79_slice_violated: KeyError), conditions with the name of an input (C70_condition_violated), equal column names (C24)."
  },
  {
   "property": "C80",
   "status": "partial",
   "theorems": [
    "FT.C80_table_partial",
    "FT.C80_single_partial",
    "FT.C80_all_instances_partial",
    "FT.C80_same_as_pandas_partial",
    "FT.C80_refused",
    "FT.C80_chunk_size",
    "FT.C80_parallel_violated",
    "FT.C80_unknown_violated",
    "FT.C80_time_lost",
    "FT.C80_pass_name_violated",
    "FT.C80_time_column_violated",
    "FT.C80_workers_violated"
   ],
   "note": "Proved for calls in one process, for every way Dask may spread and order rows, if ids are given, columns have different names and none is called time when columns are passed (C80_table_partial, C80_single_partial, C80_all_instances_partial; C80_same_as_pandas_partial when all instances are visible; C80_refused). With several workers no call on Dask succeeds (C80_parallel_violated, for all arguments); instances not visible get no row, or missing values instead of defaults if columns are passed (C80_unknown_violated); the cutoff times are not in the result (C80_time_lost); a passed column with the name of a feature splits rows (C80_pass_name_violated); a feature called time is lost (C80_time_column_violated)."
  },
  {
   "property": "C81",
   "status": "partial",
   "theorems": [
    "FT.C81_new_data_partial",
    "FT.C81_same_data_partial",
    "FT.C81_computable_partial",
    "FT.C81_not_visible_violated",
    "FT.C81_single_partial",
    "FT.C81_single_same_data_partial"
   ],
   "note": "Proved for cutoff tables and for single cutoff times (C81_single_partial), without approximation, whose instances are visible at their times, if columns have different names; the returned features are calculable under plain conditions (C81_computable_partial). Instances that are not visible get missing values instead of the encoding (C81_not_visible_violated). Dtypes (to_numeric) are not modelled."
  },
  {
   "property": "C82",
   "status": "partial",
   "theorems": [
    "FT.C82_features",
    "FT.C82_row_partial",
    "FT.C82_table_partial",
    "FT.C82_single_partial",
    "FT.C82_approximate_partial",
    "FT.C82_interesting_violated"
   ],
   "note": "Proved without approximation, or with it if some aggregation is not approximated (C82_approximate_partial; otherwise C60_approximate_violated), for seed features that follow relationships of the entity set, if secondary time indexes hide no keys. Interesting values are counted over all rows, so entity sets that agree up to t may get different features (C82_interesting_violated); the schema in the theorems includes the interesting values."
  },
  {
   "property": "C83",
   "status": "partial",
   "theorems": [
    "FT.C83_name_violated",
    "FT.C83_reloaded_partial"
   ],
   "note": "Proved for the entity sets of C15 (Describable), with last time indexes as add_last_time_indexes computes them, or none. Renamed variables lose their name and with it the names of features (C83_name_violated)."
  },
  {
   "property": "C84",
   "status": "partial",
   "theorems": [
    "FT.C84_well_formed",
    "FT.C84_features_partial",
    "FT.C84_matrix_partial",
    "FT.C84_description_partial",
    "FT.C84_own_group_violated"
   ],
   "note": "C84_well_formed holds for all calls. Proved when seed features are features of the entity set (without use_previous, which is not represented), different features that are used have different full names, no group-by feature is grouped by its own input, and the primitives can be stored (C49). For a group-by feature grouped by its own input, which dfs builds, the claim is false (C84_own_group_violated)."
  },
  {
   "property": "C85",
   "status": "proved",
   "theorems": [
    "FT.C85_created",
    "FT.C85_accepted_iff",
    "FT.C85_time_type_kept"
   ],
   "note": ""
  },
  {
   "property": "C86",
   "status": "partial",
   "theorems": [
    "FT.C86_update",
    "FT.C86_update_accepted_iff",
    "FT.C86_delete_iff",
    "FT.C86_convert",
    "FT.C86_description_lost_violated",
    "FT.C86_convert_description_violated"
   ],
   "note": "Acceptance and result are characterised exactly. Two details are not as the property says: replacing data makes the variables of index and time index anew, so their descriptions, interesting values and other parameters are lost (C86_description_lost_violated); so does converting a variable (C86_convert_description_violated)."
  },
  {
   "property": "C87",
   "status": "partial",
   "theorems": [
    "FT.C87_one_name_per_output",
    "FT.C87_renamed",
    "FT.C87_rename_empty",
    "FT.C87_named",
    "FT.C87_names_identify_partial",
    "FT.C87_columns_identify_partial",
    "FT.C87_parent_name",
    "FT.C87_child_name",
    "FT.C87_no_relationship_name",
    "FT.C87_windows",
    "FT.C87_self_relationships_violated",
    "FT.C87_two_way_violated",
    "FT.C87_point_violated",
    "FT.C87_case_violated",
    "FT.C87_slices_violated"
   ],
   "note": "Proved for features of any depth made from a clear vocabulary: identifiers without the characters names use, primitives told apart by upper-case name and arguments, no two relationships to and fro between two entities; primitives that make up their own names (operators, IsIn, Haversine) are left out except comparison with a value in a condition. Without these conditions the claim is false of the code: two relationships of an entity to itself (C87_self_relationships_violated), relationships to and fro (C87_two_way_violated), points in identifiers (C87_point_violated), names differing in case (C87_case_violated), outputs of features taken over (C87_slices_violated)."
  },
  {
   "property": "C88",
   "status": "partial",
   "theorems": [
    "FT.C88_answers_partial",
    "FT.C88_refused",
    "FT.C88_commutative_violated"
   ],
   "note": "Proved for all schemas, primitives and arguments (C88_answers_partial), refusals exactly (C88_refused). Excluded because the code raises there: commutative primitives with inputs of different types (C88_commutative_violated: AssertionError) and primitives with base_of_exclude (C44_base_of_exclude_violated: AttributeError)."
  },
  {
   "property": "C89",
   "status": "partial",
   "theorems": [
    "FT.C89_concat_data",
    "FT.C89_concat_partial",
    "FT.C89_concat_new_partial",
    "FT.C89_concat_terminates",
    "FT.C89_update_partial",
    "FT.C89_update_untimed",
    "FT.C89_update_stale_violated"
   ],
   "note": "Proved under Orderly (see C12) for concat, and for update_data of entities with a last time index or without timed parents; refuted for update_data of an entity without a last time index whose parents have one (C89_update_stale_violated)."
  },
  {
   "property": "C90",
   "status": "partial",
   "theorems": [
    "FT.C90_read_back_partial",
    "FT.C90_written_iff",
    "FT.C90_elsewhere",
    "FT.C90_copied",
    "FT.C90_features_text",
    "FT.C90_features_file_partial",
    "FT.C90_features_refused",
    "FT.C90_http_directory_violated",
    "FT.C90_tar_directory_violated",
    "FT.C90_features_location_violated"
   ],
   "note": "Proved for all paths except directories whose name ends in .tar (written but not readable, C90_tar_directory_violated), local names starting with http (refused, C90_http_directory_violated) and feature files whose name is itself JSON (C90_features_location_violated)."
  },
  {
   "property": "C91",
   "status": "partial",
   "theorems": [
    "FT.C91_boxes",
    "FT.C91_arrows_partial",
    "FT.C91_picture_tells_partial",
    "FT.C91_not_saved",
    "FT.C91_saved",
    "FT.C91_path_violated",
    "FT.C91_text_tells_partial",
    "FT.C91_colon_violated",
    "FT.C91_names_violated"
   ],
   "note": "Boxes, arrows, texts and files exact. Telling entity sets apart is proved for names without the characters used as separators; other names violate it (C91_names_violated, C91_colon_violated). Path objects always raise (C91_path_violated)."
  },
  {
   "property": "C92",
   "status": "partial",
   "theorems": [
    "FT.C92_relationships",
    "FT.C92_paths",
    "FT.C92_variables",
    "FT.C92_entities",
    "FT.C92_entities_partial",
    "FT.C92_entities_violated",
    "FT.C92_features_partial",
    "FT.C92_feature_lists_violated",
    "FT.C92_feature_sets_violated"
   ],
   "note": "Relationships, paths (lists), variables: exact. Entities in sets: if one text object stands for each id (C92_entities_violated otherwise). Features in sets: those of one entity and of one output, for texts without hash collisions (C92_feature_sets_violated otherwise); in lists the claim is false (C92_feature_lists_violated)."
  }
 ]
}