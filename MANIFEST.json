{
 "claims": [
  {
   "property": "C01",
   "status": "proved",
   "theorems": [
    "TD.C01_ids_bijective",
    "TD.C01_get_id",
    "TD.C01_get_id_history"
   ],
   "note": ""
  },
  {
   "property": "C02",
   "status": "proved",
   "theorems": [
    "TD.C02_sc_is_claim_relation"
   ],
   "note": ""
  },
  {
   "property": "C03",
   "status": "proved",
   "theorems": [
    "TD.C03_mut_ex_is_same_variable"
   ],
   "note": ""
  },
  {
   "property": "C04",
   "status": "proved",
   "theorems": [
    "TD.C04_implication_error_iff",
    "TD.C04_implication_entries",
    "TD.C04_no_implications"
   ],
   "note": ""
  },
  {
   "property": "C05",
   "status": "proved",
   "theorems": [
    "TD.C05_duplicates_rejected",
    "TD.C05_accepted_iff",
    "TD.C05_default",
    "TD.C05_recorded"
   ],
   "note": ""
  },
  {
   "property": "C06",
   "status": "proved",
   "theorems": [
    "TD.C06_no_isolated_nodes"
   ],
   "note": ""
  },
  {
   "property": "C07",
   "status": "proved",
   "theorems": [
    "TD.C07_trust_dict",
    "TD.C07_belief_dict"
   ],
   "note": ""
  },
  {
   "property": "C08",
   "status": "partial",
   "theorems": [
    "TD.C08_components_lower_bound_partial",
    "TD.C08_components_correct_iff",
    "TD.C08_refuted"
   ],
   "note": "The full property is false of the code: C08_refuted exhibits a dataset where the code over-counts. Proved: it never under-counts, and the exact condition under which the count is correct."
  },
  {
   "property": "C09",
   "status": "proved",
   "theorems": [
    "TD.C09_empty_dataset",
    "TD.C09_empty_dataset_voting"
   ],
   "note": ""
  },
  {
   "property": "C10",
   "status": "proved",
   "theorems": [
    "TD.C10_claims_are_cells",
    "TD.C10_no_duplicates"
   ],
   "note": ""
  },
  {
   "property": "C11",
   "status": "proved",
   "theorems": [
    "TD.C11_round_trip",
    "TD.C11_exact_condition"
   ],
   "note": ""
  },
  {
   "property": "C12",
   "status": "proved",
   "theorems": [
    "TD.C12_table_unique",
    "TD.C12_outcome",
    "TD.C12_whitespace",
    "TD.C12_from_csv"
   ],
   "note": ""
  },
  {
   "property": "C13",
   "status": "proved",
   "theorems": [
    "TD.C13_first_row_is_truth",
    "TD.C13_errors",
    "TD.C13_has_first_row"
   ],
   "note": ""
  },
  {
   "property": "C14",
   "status": "proved",
   "theorems": [
    "TD.C14_any",
    "TD.C14_empty_dictionary",
    "TD.C14_runs",
    "TD.C14_accuracy",
    "TD.C14_in_unit_interval",
    "TD.C14_no_ties",
    "TD.C14_extremes"
   ],
   "note": ""
  },
  {
   "property": "C15",
   "status": "proved",
   "theorems": [
    "TD.C15_shape"
   ],
   "note": ""
  },
  {
   "property": "C16",
   "status": "proved",
   "theorems": [
    "TD.C16_validation"
   ],
   "note": ""
  },
  {
   "property": "C17",
   "status": "proved",
   "theorems": [
    "TD.C17_weights",
    "TD.C17_draw",
    "TD.C17_intervals",
    "TD.C17_probability"
   ],
   "note": ""
  },
  {
   "property": "C18",
   "status": "proved",
   "theorems": [
    "TD.C18_round_trip"
   ],
   "note": ""
  },
  {
   "property": "C19",
   "status": "proved",
   "theorems": [
    "TD.C19_calls",
    "TD.C19_constructor",
    "TD.C19_constructor_ok",
    "TD.C19_fixed_iterations",
    "TD.C19_stops",
    "TD.C19_gives_up_at_once"
   ],
   "note": ""
  },
  {
   "property": "C20",
   "status": "proved",
   "theorems": [
    "TD.C20_calls",
    "TD.C20_constructors",
    "TD.C20_stops",
    "TD.C20_partial_results",
    "TD.C20_fails_iff"
   ],
   "note": ""
  },
  {
   "property": "C21",
   "status": "proved",
   "theorems": [
    "TD.C21_value",
    "TD.C21_unknown",
    "TD.C21_symmetric",
    "TD.C21_zero_iff",
    "TD.C21_triangle",
    "TD.C21_cosine_range",
    "TD.C21_cosine_zero",
    "TD.C21_cosine_self",
    "TD.C21_cosine_scale",
    "TD.C21_empty"
   ],
   "note": ""
  },
  {
   "property": "C22",
   "status": "proved",
   "theorems": [
    "TD.C22_ranking",
    "TD.C22_order",
    "TD.C22_nan",
    "TD.C22_monotone_invariance",
    "TD.C22_idempotent"
   ],
   "note": ""
  },
  {
   "property": "C23",
   "status": "proved",
   "theorems": [
    "TD.C23_calls",
    "TD.C23_ordinal_iterator"
   ],
   "note": ""
  },
  {
   "property": "C24",
   "status": "proved",
   "theorems": [
    "TD.C24_run_independent",
    "TD.C24_as_fresh"
   ],
   "note": ""
  },
  {
   "property": "C25",
   "status": "proved",
   "theorems": [
    "TD.C25_isolated",
    "TD.C25_lazy",
    "TD.C25_all_calls"
   ],
   "note": ""
  },
  {
   "property": "C26",
   "status": "proved",
   "theorems": [
    "TD.C26_same_exception",
    "TD.C26_last_partial_result",
    "TD.C26_numbering",
    "TD.C26_unbounded_sums"
   ],
   "note": ""
  },
  {
   "property": "C27",
   "status": "proved",
   "theorems": [
    "TD.C27_run_iter_prefix"
   ],
   "note": ""
  },
  {
   "property": "C28",
   "status": "proved",
   "theorems": [
    "TD.C28_priors",
    "TD.C28_positive",
    "TD.C28_sum_one",
    "TD.C28_unknown"
   ],
   "note": ""
  },
  {
   "property": "C29",
   "status": "proved",
   "theorems": [
    "TD.C29_voting",
    "TD.C29_range",
    "TD.C29_rounded"
   ],
   "note": ""
  },
  {
   "property": "C30",
   "status": "proved",
   "theorems": [
    "TD.C30_sums"
   ],
   "note": ""
  },
  {
   "property": "C31",
   "status": "proved",
   "theorems": [
    "TD.C31_nearest",
    "TD.C31_sums",
    "TD.C31_sums_iter",
    "TD.C31_sums_fixed",
    "TD.C31_binary64",
    "TD.C31_float64"
   ],
   "note": ""
  },
  {
   "property": "C32",
   "status": "proved",
   "theorems": [
    "TD.C32_average_log",
    "TD.C32_range",
    "TD.C32_nan",
    "TD.C32_nan_fixed",
    "TD.C32_nan_never_converges",
    "TD.C32_nan_cosine",
    "TD.C32_nan_cosine_above"
   ],
   "note": ""
  },
  {
   "property": "C33",
   "status": "proved",
   "theorems": [
    "TD.C33_investment",
    "TD.C33_range"
   ],
   "note": ""
  },
  {
   "property": "C34",
   "status": "proved",
   "theorems": [
    "TD.C34_pooled_investment",
    "TD.C34_range"
   ],
   "note": ""
  },
  {
   "property": "C35",
   "status": "proved",
   "theorems": [
    "TD.C35_truth_finder",
    "TD.C35_range",
    "TD.C35_half",
    "TD.C35_initial_trust_one"
   ],
   "note": ""
  },
  {
   "property": "C36",
   "status": "proved",
   "theorems": [
    "TD.C36_crh",
    "TD.C36_range",
    "TD.C36_sum"
   ],
   "note": ""
  },
  {
   "property": "C37",
   "status": "proved",
   "theorems": [
    "TD.C37_unbounded_sums",
    "TD.C37_returns",
    "TD.C37_partial_results",
    "TD.C37_other_iterator"
   ],
   "note": ""
  },
  {
   "property": "C38",
   "status": "proved",
   "theorems": [
    "TD.C38_terminates",
    "TD.C38_ranking_settles"
   ],
   "note": ""
  },
  {
   "property": "C39",
   "status": "proved",
   "theorems": [
    "TD.C39_converges",
    "TD.C39_run_succeeds"
   ],
   "note": ""
  },
  {
   "property": "C40",
   "status": "proved",
   "theorems": [
    "TD.C40_constructor",
    "TD.C40_run",
    "TD.C40_run_iter",
    "TD.C40_recorded",
    "TD.C40_voting",
    "TD.C40_most_believed"
   ],
   "note": ""
  },
  {
   "property": "C41",
   "status": "proved",
   "theorems": [
    "TD.C41_constructor",
    "TD.C41_run",
    "TD.C41_run_iter",
    "TD.C41_voting"
   ],
   "note": ""
  },
  {
   "property": "C42",
   "status": "proved",
   "theorems": [
    "TD.C42_run",
    "TD.C42_run_iter",
    "TD.C42_voting",
    "TD.C42_unanimous",
    "TD.C42_pooled",
    "TD.C42_sources"
   ],
   "note": ""
  },
  {
   "property": "C43",
   "status": "proved",
   "theorems": [
    "TD.C43_most_believed",
    "TD.C43_maximal",
    "TD.C43_errors"
   ],
   "note": ""
  },
  {
   "property": "C44",
   "status": "proved",
   "theorems": [
    "TD.C44_filter",
    "TD.C44_keys",
    "TD.C44_compose",
    "TD.C44_idempotent"
   ],
   "note": ""
  },
  {
   "property": "C45",
   "status": "partial",
   "theorems": [
    "TD.C45_copy",
    "TD.C45_view",
    "TD.C45_variables_partial",
    "TD.C45_shared",
    "TD.C45_own"
   ],
   "note": "The full property is false of the code when a variable filter is given: C45_shared exhibits the inner dictionaries shared between result and original. Proved without a variable filter, and for the outer level with one."
  },
  {
   "property": "C46",
   "status": "proved",
   "theorems": [
    "TD.C46_stats",
    "TD.C46_empty",
    "TD.C46_trust_stats",
    "TD.C46_belief_stats_values",
    "TD.C46_belief_stats"
   ],
   "note": ""
  },
  {
   "property": "C47",
   "status": "proved",
   "theorems": [
    "TD.C47_diff",
    "TD.C47_self",
    "TD.C47_swap",
    "TD.C47_chain",
    "TD.C47_runs"
   ],
   "note": ""
  },
  {
   "property": "C48",
   "status": "proved",
   "theorems": [
    "TD.C48_grammar",
    "TD.C48_bounded"
   ],
   "note": ""
  },
  {
   "property": "C49",
   "status": "proved",
   "theorems": [
    "TD.C49_parameter"
   ],
   "note": ""
  },
  {
   "property": "C50",
   "status": "proved",
   "theorems": [
    "TD.C50_unknown",
    "TD.C50_label",
    "TD.C50_split",
    "TD.C50_construct",
    "TD.C50_parsed_kinds"
   ],
   "note": ""
  },
  {
   "property": "C51",
   "status": "proved",
   "theorems": [
    "TD.C51_output",
    "TD.C51_runs"
   ],
   "note": ""
  },
  {
   "property": "C52",
   "status": "partial",
   "theorems": [
    "TD.C52_parameters",
    "TD.C52_bad_request",
    "TD.C52_diff",
    "TD.C52_answer_partial",
    "TD.C52_status",
    "TD.C52_unhandled_usums",
    "TD.C52_unhandled_average_log",
    "TD.C52_unhandled_previous"
   ],
   "note": "The full property is false of the code: C52_unhandled_usums, C52_unhandled_average_log and C52_unhandled_previous exhibit requests answered by an uncaught exception. Proved: the exact answer for every request whose parsed parameters give sound algorithm configurations and whose previous results are usable (exact arithmetic), the meaning of the parameters field, which malformed requests give 400, and that an error status is 400, or 500 for a ConvergenceError. Independence of requests is built into the model: the response is a function of request and environment."
  },
  {
   "property": "C53",
   "status": "proved",
   "theorems": [
    "TD.C53_inside",
    "TD.C53_sources",
    "TD.C53_claims",
    "TD.C53_variables"
   ],
   "note": ""
  },
  {
   "property": "C54",
   "status": "proved",
   "theorems": [
    "TD.C54_render",
    "TD.C54_compile",
    "TD.C54_count",
    "TD.C54_edges"
   ],
   "note": ""
  },
  {
   "property": "C55",
   "status": "proved",
   "theorems": [
    "TD.C55_render",
    "TD.C55_compile_same",
    "TD.C55_compile_stale"
   ],
   "note": ""
  },
  {
   "property": "C56",
   "status": "proved",
   "theorems": [
    "TD.C56_graded",
    "TD.C56_graded_exact",
    "TD.C56_monotone",
    "TD.C56_monotone_rounded",
    "TD.C56_palette",
    "TD.C56_special",
    "TD.C56_scheme"
   ],
   "note": ""
  },
  {
   "property": "C57",
   "status": "proved",
   "theorems": [
    "TD.C57_constructor",
    "TD.C57_frames_plain",
    "TD.C57_frames",
    "TD.C57_exception",
    "TD.C57_zero_division",
    "TD.C57_when_one",
    "TD.C57_colours_afterwards",
    "TD.C57_sound"
   ],
   "note": ""
  },
  {
   "property": "C58",
   "status": "proved",
   "theorems": [
    "TD.C58_round_trip",
    "TD.C58_injective",
    "TD.C58_animation"
   ],
   "note": ""
  },
  {
   "property": "C59",
   "status": "proved",
   "theorems": [
    "TD.C59_label"
   ],
   "note": ""
  },
  {
   "property": "C60",
   "status": "proved",
   "theorems": [
    "TD.C60_run_time",
    "TD.C60_iter_time",
    "TD.C60_nonneg"
   ],
   "note": ""
  },
  {
   "property": "C61",
   "status": "proved",
   "theorems": [
    "TD.C61_arrow"
   ],
   "note": ""
  },
  {
   "property": "C62",
   "status": "proved",
   "theorems": [
    "TD.C62_png",
    "TD.C62_colours",
    "TD.C62_picture",
    "TD.C62_schemes"
   ],
   "note": ""
  },
  {
   "property": "C63",
   "status": "proved",
   "theorems": [
    "TD.C63_exceptions",
    "TD.C63_scores"
   ],
   "note": ""
  },
  {
   "property": "C64",
   "status": "proved",
   "theorems": [
    "TD.C64_labels",
    "TD.C64_distinct"
   ],
   "note": ""
  },
  {
   "property": "C65",
   "status": "proved",
   "theorems": [
    "TD.C65_usage",
    "TD.C65_warnings",
    "TD.C65_output"
   ],
   "note": ""
  },
  {
   "property": "C66",
   "status": "proved",
   "theorems": [
    "TD.C66_usage",
    "TD.C66_output"
   ],
   "note": ""
  },
  {
   "property": "C67",
   "status": "proved",
   "theorems": [
    "TD.C67_output",
    "TD.C67_usage"
   ],
   "note": ""
  },
  {
   "property": "C68",
   "status": "proved",
   "theorems": [
    "TD.C68_run",
    "TD.C68_run_iter",
    "TD.C68_voting",
    "TD.C68_copies"
   ],
   "note": ""
  },
  {
   "property": "C69",
   "status": "proved",
   "theorems": [
    "TD.C69_prefix",
    "TD.C69_repeat",
    "TD.C69_threshold",
    "TD.C69_larger"
   ],
   "note": ""
  },
  {
   "property": "C70",
   "status": "proved",
   "theorems": [
    "TD.C70_truthfinder",
    "TD.C70_proportional",
    "TD.C70_voting",
    "TD.C70_unbounded_sums",
    "TD.C70_crh_differs"
   ],
   "note": ""
  },
  {
   "property": "C71",
   "status": "proved",
   "theorems": [
    "TD.C71_converges",
    "TD.C71_run_succeeds"
   ],
   "note": ""
  },
  {
   "property": "C72",
   "status": "proved",
   "theorems": [
    "TD.C72_file_dataset",
    "TD.C72_default",
    "TD.C72_file_values",
    "TD.C72_tsv",
    "TD.C72_tsv_unique",
    "TD.C72_stock",
    "TD.C72_stock_truth",
    "TD.C72_stock_names",
    "TD.C72_stock_sign"
   ],
   "note": ""
  },
  {
   "property": "C73",
   "status": "proved",
   "theorems": [
    "TD.C73_edits",
    "TD.C73_load",
    "TD.C73_rectangular",
    "TD.C73_reachable",
    "TD.C73_sent",
    "TD.C73_one_column"
   ],
   "note": ""
  },
  {
   "property": "C74",
   "status": "proved",
   "theorems": [
    "TD.C74_parameters",
    "TD.C74_limit",
    "TD.C74_answered",
    "TD.C74_voting_message",
    "TD.C74_usums",
    "TD.C74_previous"
   ],
   "note": ""
  },
  {
   "property": "C75",
   "status": "proved",
   "theorems": [
    "TD.C75_frames",
    "TD.C75_no_failure"
   ],
   "note": ""
  },
  {
   "property": "C76",
   "status": "proved",
   "theorems": [
    "TD.C76_crh_above",
    "TD.C76_range",
    "TD.C76_range_iter",
    "TD.C76_voting",
    "TD.C76_zero_exponent",
    "TD.C76_exceptions",
    "TD.C76_nan"
   ],
   "note": ""
  },
  {
   "property": "C77",
   "status": "proved",
   "theorems": [
    "TD.C77_escapes",
    "TD.C77_usums",
    "TD.C77_run",
    "TD.C77_unit",
    "TD.C77_nonneg",
    "TD.C77_booleans"
   ],
   "note": ""
  },
  {
   "property": "C78",
   "status": "proved",
   "theorems": [
    "TD.C78_intervals",
    "TD.C78_draw",
    "TD.C78_shape",
    "TD.C78_validation",
    "TD.C78_round_trip",
    "TD.C78_command",
    "TD.C78_any"
   ],
   "note": ""
  },
  {
   "property": "C79",
   "status": "proved",
   "theorems": [
    "TD.C79_above",
    "TD.C79_bound"
   ],
   "note": ""
  },
  {
   "property": "C80",
   "status": "proved",
   "theorems": [
    "TD.C80_claims",
    "TD.C80_claims_iter",
    "TD.C80_sources_truthfinder",
    "TD.C80_usums",
    "TD.C80_sums_limit",
    "TD.C80_avlog_limit",
    "TD.C80_one_iteration"
   ],
   "note": ""
  },
  {
   "property": "C81",
   "status": "proved",
   "theorems": [
    "TD.C81_document",
    "TD.C81_canvas",
    "TD.C81_png",
    "TD.C81_lost",
    "TD.C81_picture",
    "TD.C81_schemes",
    "TD.C81_animation",
    "TD.C81_no_frames"
   ],
   "note": ""
  },
  {
   "property": "C82",
   "status": "proved",
   "theorems": [
    "TD.C82_session",
    "TD.C82_canvases",
    "TD.C82_no_frames",
    "TD.C82_sorting",
    "TD.C82_trust",
    "TD.C82_belief",
    "TD.C82_differences",
    "TD.C82_text_order",
    "TD.C82_recovers",
    "TD.C82_tabs",
    "TD.C82_no_tabs",
    "TD.C82_scores",
    "TD.C82_answer",
    "TD.C82_diff",
    "TD.C82_crh"
   ],
   "note": ""
  },
  {
   "property": "C83",
   "status": "proved",
   "theorems": [
    "TD.C83_average_log",
    "TD.C83_average_log_nan",
    "TD.C83_crh",
    "TD.C83_crh_default"
   ],
   "note": ""
  },
  {
   "property": "C84",
   "status": "proved",
   "theorems": [
    "TD.C84_debug_changes_nothing",
    "TD.C84_silent",
    "TD.C84_debug_output",
    "TD.C84_experiment",
    "TD.C84_experiment_empty"
   ],
   "note": ""
  },
  {
   "property": "C85",
   "status": "proved",
   "theorems": [
    "TD.C85_stopping_cosine",
    "TD.C85_symmetric",
    "TD.C85_range",
    "TD.C85_self",
    "TD.C85_accuracy",
    "TD.C85_zero",
    "TD.C85_underflow",
    "TD.C85_threshold_zero",
    "TD.C85_stopping"
   ],
   "note": ""
  },
  {
   "property": "C86",
   "status": "proved",
   "theorems": [
    "TD.C86_options",
    "TD.C86_one_reading",
    "TD.C86_no_words",
    "TD.C86_unknown_command",
    "TD.C86_run",
    "TD.C86_run_rejected",
    "TD.C86_run_help",
    "TD.C86_synth",
    "TD.C86_synth_rejected",
    "TD.C86_graph",
    "TD.C86_graph_rejected",
    "TD.C86_graph_help",
    "TD.C86_httpd",
    "TD.C86_httpd_rejected",
    "TD.C86_option_first",
    "TD.C86_help",
    "TD.C86_files",
    "TD.C86_graph_files",
    "TD.C86_graph_emptied",
    "TD.C86_data_loss",
    "TD.C86_run_ends",
    "TD.C86_synth_ends",
    "TD.C86_graph_ends"
   ],
   "note": ""
  },
  {
   "property": "C87",
   "status": "proved",
   "theorems": [
    "TD.C87_voting",
    "TD.C87_sums_limit",
    "TD.C87_sums",
    "TD.C87_truthfinder",
    "TD.C87_avlog",
    "TD.C87_pooled",
    "TD.C87_investment"
   ],
   "note": ""
  },
  {
   "property": "C88",
   "status": "proved",
   "theorems": [
    "TD.C88_movement",
    "TD.C88_settles",
    "TD.C88_rises",
    "TD.C88_run_succeeds",
    "TD.C88_converges"
   ],
   "note": ""
  },
  {
   "property": "C89",
   "status": "proved",
   "theorems": [
    "TD.C89_objective",
    "TD.C89_best",
    "TD.C89_settles",
    "TD.C89_incomplete"
   ],
   "note": ""
  },
  {
   "property": "C90",
   "status": "proved",
   "theorems": [
    "TD.C90_concentration",
    "TD.C90_settles"
   ],
   "note": ""
  },
  {
   "property": "C91",
   "status": "proved",
   "theorems": [
    "TD.C91_swings",
    "TD.C91_never_converges",
    "TD.C91_cosine"
   ],
   "note": ""
  },
  {
   "property": "C92",
   "status": "proved",
   "theorems": [
    "TD.C92_results",
    "TD.C92_unit",
    "TD.C92_exhausted",
    "TD.C92_second_run",
    "TD.C92_single_use",
    "TD.C92_domain_size",
    "TD.C92_claim_density",
    "TD.C92_trust_dist",
    "TD.C92_failures",
    "TD.C92_script",
    "TD.C92_ten_repetitions",
    "TD.C92_type_error"
   ],
   "note": ""
  },
  {
   "property": "C93",
   "status": "proved",
   "theorems": [
    "TD.C93_times",
    "TD.C93_shapes"
   ],
   "note": ""
  },
  {
   "property": "C94",
   "status": "proved",
   "theorems": [
    "TD.C94_replicated",
    "TD.C94_voting",
    "TD.C94_unbounded_sums",
    "TD.C94_exists",
    "TD.C94_truth_finder_differs",
    "TD.C94_crh_differs",
    "TD.C94_average_log_differs"
   ],
   "note": ""
  },
  {
   "property": "C95",
   "status": "proved",
   "theorems": [
    "TD.C95_limit",
    "TD.C95_all_or_nothing",
    "TD.C95_fades",
    "TD.C95_prior_matters"
   ],
   "note": ""
  },
  {
   "property": "C96",
   "status": "proved",
   "theorems": [
    "TD.C96_next",
    "TD.C96_next_iter",
    "TD.C96_one",
    "TD.C96_default"
   ],
   "note": ""
  },
  {
   "property": "C97",
   "status": "proved",
   "theorems": [
    "TD.C97_endless",
    "TD.C97_reversed"
   ],
   "note": ""
  },
  {
   "property": "C98",
   "status": "proved",
   "theorems": [
    "TD.C98_copies",
    "TD.C98_copies_iter",
    "TD.C98_claims",
    "TD.C98_order",
    "TD.C98_exact"
   ],
   "note": ""
  },
  {
   "property": "C99",
   "status": "proved",
   "theorems": [
    "TD.C99_sums",
    "TD.C99_average_log",
    "TD.C99_voting",
    "TD.C99_sums_exact",
    "TD.C99_average_log_exact",
    "TD.C99_most_believed",
    "TD.C99_most_believed_nearly"
   ],
   "note": ""
  },
  {
   "property": "C100",
   "status": "proved",
   "theorems": [
    "TD.C100_sums",
    "TD.C100_average_log",
    "TD.C100_sums_any",
    "TD.C100_average_log_any",
    "TD.C100_rounding_decides"
   ],
   "note": ""
  },
  {
   "property": "C101",
   "status": "proved",
   "theorems": [
    "TD.C101_sums_rate",
    "TD.C101_average_log_rate",
    "TD.C101_sums",
    "TD.C101_average_log",
    "TD.C101_sums_default",
    "TD.C101_average_log_default",
    "TD.C101_sums_double",
    "TD.C101_average_log_double"
   ],
   "note": ""
  },
  {
   "property": "C102",
   "status": "proved",
   "theorems": [
    "TD.C102_round_trip",
    "TD.C102_injective",
    "TD.C102_ascii",
    "TD.C102_browser",
    "TD.C102_browser_none",
    "TD.C102_python",
    "TD.C102_graph",
    "TD.C102_canvas",
    "TD.C102_animation"
   ],
   "note": ""
  },
  {
   "property": "C103",
   "status": "proved",
   "theorems": [
    "TD.C103_page",
    "TD.C103_data",
    "TD.C103_algorithms",
    "TD.C103_measures",
    "TD.C103_settings",
    "TD.C103_drawers"
   ],
   "note": ""
  },
  {
   "property": "C104",
   "status": "proved",
   "theorems": [
    "TD.C104_investment",
    "TD.C104_pooled_investment",
    "TD.C104_investment_fixed",
    "TD.C104_pooled_investment_fixed",
    "TD.C104_investment_exact",
    "TD.C104_pooled_investment_exact"
   ],
   "note": ""
  },
  {
   "property": "C105",
   "status": "proved",
   "theorems": [
    "TD.C105_scores_sorted",
    "TD.C105_sorted",
    "TD.C105_read",
    "TD.C105_refused",
    "TD.C105_scores",
    "TD.C105_finite",
    "TD.C105_labels",
    "TD.C105_answer",
    "TD.C105_nan"
   ],
   "note": ""
  },
  {
   "property": "C106",
   "status": "proved",
   "theorems": [
    "TD.C106_order",
    "TD.C106_same"
   ],
   "note": ""
  },
  {
   "property": "C107",
   "status": "proved",
   "theorems": [
    "TD.C107_any_client",
    "TD.C107_page",
    "TD.C107_safe",
    "TD.C107_handlers",
    "TD.C107_percent"
   ],
   "note": ""
  },
  {
   "property": "C108",
   "status": "proved",
   "theorems": [
    "TD.C108_shown"
   ],
   "note": ""
  },
  {
   "property": "C109",
   "status": "proved",
   "theorems": [
    "TD.C109_crh"
   ],
   "note": ""
  },
  {
   "property": "C110",
   "status": "proved",
   "theorems": [
    "TD.C110_grammar",
    "TD.C110_refused"
   ],
   "note": ""
  },
  {
   "property": "C111",
   "status": "proved",
   "theorems": [
    "TD.C111_truth_finder"
   ],
   "note": ""
  },
  {
   "property": "C112",
   "status": "proved",
   "theorems": [
    "TD.C112_follows",
    "TD.C112_run",
    "TD.C112_always",
    "TD.C112_fixed",
    "TD.C112_most_believed"
   ],
   "note": ""
  },
  {
   "property": "C113",
   "status": "proved",
   "theorems": [
    "TD.C113_forgets",
    "TD.C113_converges",
    "TD.C113_settles",
    "TD.C113_settles_any"
   ],
   "note": ""
  },
  {
   "property": "C114",
   "status": "proved",
   "theorems": [
    "TD.C114_same",
    "TD.C114_any",
    "TD.C114_settles"
   ],
   "note": ""
  },
  {
   "property": "C115",
   "status": "proved",
   "theorems": [
    "TD.C115_settles"
   ],
   "note": ""
  },
  {
   "property": "C116",
   "status": "proved",
   "theorems": [
    "TD.C116_exact",
    "TD.C116_double",
    "TD.C116_after"
   ],
   "note": ""
  },
  {
   "property": "C117",
   "status": "proved",
   "theorems": [
    "TD.C117_runs",
    "TD.C117_equilibria"
   ],
   "note": ""
  },
  {
   "property": "C118",
   "status": "proved",
   "theorems": [
    "TD.C118_local"
   ],
   "note": ""
  }
 ]
}