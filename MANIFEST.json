{
 "claims": [
  {
   "property": "C01",
   "status": "proved",
   "theorems": [
    "Verif.Props.C01_buffer_window",
    "Verif.Props.C01_buffer_istart",
    "Verif.Props.C01_buffer_entries"
   ],
   "note": "window contents, len_buffer, i_start for every history"
  },
  {
   "property": "C02",
   "status": "proved",
   "theorems": [
    "Verif.Props.C02_flax_buffer_refines",
    "Verif.Props.C02_flax_buffer_pow2",
    "Verif.Props.C02_flax_buffer_wrap_breaks"
   ],
   "note": "fewer than 2^31 writes for every maxlen<=2^30; all streams for powers of two; for every other maxlen a stream of length 2^31 on which the two differ (C02_flax_buffer_wrap_breaks)"
  },
  {
   "property": "C03",
   "status": "proved",
   "theorems": [
    "Verif.Props.C03_lag",
    "Verif.Props.C03_lag_positions",
    "Verif.Props.C03_lag_zero",
    "Verif.Props.C03_flax_lag",
    "Verif.Props.C03_lag_return_state_defect"
   ],
   "note": "positions, identity, Flax agreement below 2^31 steps; return_state defect of Haiku Lag recorded"
  },
  {
   "property": "C04",
   "status": "proved",
   "theorems": [
    "Verif.Props.C04_diff",
    "Verif.Props.C04_diff_first",
    "Verif.Props.C04_diff_positions",
    "Verif.Props.C04_diff_telescopes",
    "Verif.Props.C04_flax_diff"
   ],
   "note": ""
  },
  {
   "property": "C05",
   "status": "proved",
   "theorems": [
    "Verif.Props.C05_pct_change",
    "Verif.Props.C05_pct_change_compounds",
    "Verif.Props.C05_flax_pct_change",
    "Verif.Props.C05_flax_pct_change_no_pad"
   ],
   "note": "fill_method in {ffill,pad}; the other branch of the Haiku module raises TypeError"
  },
  {
   "property": "C06",
   "status": "proved",
   "theorems": [
    "Verif.Props.C06_ffill",
    "Verif.Props.C06_ffill_nan_iff",
    "Verif.Props.C06_ffill_most_recent",
    "Verif.Props.C06_ffill_idempotent"
   ],
   "note": ""
  },
  {
   "property": "C07",
   "status": "proved",
   "theorems": [
    "Verif.Props.C07_rolling_mean",
    "Verif.Props.C07_rolling_mean_bounds",
    "Verif.Props.C07_flax_rolling_mean"
   ],
   "note": ""
  },
  {
   "property": "C08",
   "status": "proved",
   "theorems": [
    "Verif.Props.C08_counter",
    "Verif.Props.C08_counter_exact"
   ],
   "note": ""
  },
  {
   "property": "C09",
   "status": "proved",
   "theorems": [
    "Verif.Props.C09_has_changed",
    "Verif.Props.C09_has_changed_first",
    "Verif.Props.C09_has_changed_first_values",
    "Verif.Props.C09_has_changed_nan"
   ],
   "note": ""
  },
  {
   "property": "C10",
   "status": "proved",
   "theorems": [
    "Verif.Props.C10_fill_nan_inf",
    "Verif.Props.C10_fill_nan_inf_finite"
   ],
   "note": ""
  },
  {
   "property": "C11",
   "status": "proved",
   "theorems": [
    "Verif.Props.C11_apply_mask_none",
    "Verif.Props.C11_apply_mask_axis0",
    "Verif.Props.C11_apply_mask_axis1",
    "Verif.Props.C11_apply_mask_bad_axis",
    "Verif.Props.C11_apply_mask_noninterference"
   ],
   "note": ""
  },
  {
   "property": "C12",
   "status": "proved",
   "theorems": [
    "Verif.Props.C12_mask_mean",
    "Verif.Props.C12_mask_mean_noninterference",
    "Verif.Props.C12_mask_mean_bounds",
    "Verif.Props.C12_flax_mask_mean"
   ],
   "note": "NaN at an unmasked position counts as 0 (as in the code)"
  },
  {
   "property": "C13",
   "status": "proved",
   "theorems": [
    "Verif.Props.C13_mask_std",
    "Verif.Props.C13_mask_std_empty",
    "Verif.Props.C13_mask_std_noninterference",
    "Verif.Props.C13_mask_std_translation",
    "Verif.Props.C13_mask_normalize_finite",
    "Verif.Props.C13_mask_normalize",
    "Verif.Props.C13_mask_std_axis1_wrong",
    "Verif.Props.C13_flax_mask_std",
    "Verif.Props.C13_flax_mask_std_nan",
    "Verif.Props.C13_mask_std_axis1_exact"
   ],
   "note": "axis=1 defect recorded (C13_mask_std_axis1_wrong)"
  },
  {
   "property": "C14",
   "status": "proved",
   "theorems": [
    "Verif.Props.C14_ohlc_bar",
    "Verif.Props.C14_segment_exists",
    "Verif.Props.C14_ohlc_ordered"
   ],
   "note": ""
  },
  {
   "property": "C15",
   "status": "partial",
   "theorems": [
    "Verif.Props.C15_flax_ohlc_agrees_partial",
    "Verif.Props.C15_flax_ohlc_nan_differs",
    "Verif.Props.C15_flax_ohlc_nan_poisons",
    "Verif.Props.C15_flax_ohlc_bar_partial",
    "Verif.Props.C15_agrees_iff_partial"
   ],
   "note": "agreement with Haiku is false in general; proved: the exact Flax bar at every step of every stream (C15_flax_ohlc_bar_partial) and that it agrees with Haiku exactly when no NaN arrives inside a bar that already has a price (C15_agrees_iff_partial)"
  },
  {
   "property": "C16",
   "status": "proved",
   "theorems": [
    "Verif.Props.C16_ewma_adjust",
    "Verif.Props.C16_alpha_com",
    "Verif.Props.C16_ewma_nan_keeps",
    "Verif.Props.C16_flax_ewma_agrees"
   ],
   "note": ""
  },
  {
   "property": "C17",
   "status": "proved",
   "theorems": [
    "Verif.Props.C17_ewma_start_nan",
    "Verif.Props.C17_ewma_filter",
    "Verif.Props.C17_ewma_recursive",
    "Verif.Props.C17_ewma_ignore_na"
   ],
   "note": ""
  },
  {
   "property": "C18",
   "status": "proved",
   "theorems": [
    "Verif.Props.C18_ewma_range",
    "Verif.Props.C18_ewma_min_periods"
   ],
   "note": ""
  },
  {
   "property": "C19",
   "status": "proved",
   "theorems": [
    "Verif.Props.C19_ewma_linear_mean",
    "Verif.Props.C19_ewma_linear_filter"
   ],
   "note": ""
  },
  {
   "property": "C20",
   "status": "partial",
   "theorems": [
    "Verif.Props.C20_numba_ewma_agrees_partial",
    "Verif.Props.C20_numba_ewma_inf_differs"
   ],
   "note": "proved for streams (and initial value) without infinities; false with an infinity, witness given"
  },
  {
   "property": "C21",
   "status": "partial",
   "theorems": [
    "Verif.Props.C21_numba_resume",
    "Verif.Props.C21_numba_frame_partial",
    "Verif.Props.C21_numba_overwrites_saved_state",
    "Verif.Props.C21_numba_replay_differs"
   ],
   "note": "resume proved; the no-mutation half is false of the code (the state arrays are updated in place), witness given"
  },
  {
   "property": "C22",
   "status": "proved",
   "theorems": [
    "Verif.Props.C22_ewmvar_nonneg",
    "Verif.Props.C22_ewmvar_constant",
    "Verif.Props.C22_ewmvar_adjust",
    "Verif.Props.C22_ewmvar_no_adjust",
    "Verif.Props.C22_ewmvar_linear",
    "Verif.Props.C22_ewmvar_leading_nan"
   ],
   "note": "streams without infinities"
  },
  {
   "property": "C23",
   "status": "proved",
   "theorems": [
    "Verif.Props.C23_ewmcov_entry",
    "Verif.Props.C23_ewmcov_transpose",
    "Verif.Props.C23_ewmcov_symm",
    "Verif.Props.C23_ewmcov_psd",
    "Verif.Props.C23_flax_ewmcov_agrees",
    "Verif.Props.C23_flax_com",
    "Verif.Props.C23_ewmcov_initial_value_negative"
   ],
   "note": "symmetry on every stream; PSD on finite streams with NaN initial value (counterexample otherwise recorded)"
  },
  {
   "property": "C24",
   "status": "proved",
   "theorems": [
    "Verif.Props.C24_arma_recurrence",
    "Verif.Props.C24_arma_finite",
    "Verif.Props.C24_arma_outputs_finite"
   ],
   "note": "streams of any floats; finite recurrence with explicit coefficient order"
  },
  {
   "property": "C25",
   "status": "partial",
   "theorems": [
    "Verif.Props.C25_flax_arma_actual_partial",
    "Verif.Props.C25_flax_arma_ar1_is_identity",
    "Verif.Props.C25_flax_arma_differs"
   ],
   "note": "documented recurrence is false of the code (C25_flax_arma_ar1_is_identity, C25_flax_arma_differs); the recurrence the code satisfies is proved"
  },
  {
   "property": "C26",
   "status": "partial",
   "theorems": [
    "Verif.Props.C26_snarimax_features",
    "Verif.Props.C26_snarimax_p0_no_lookahead_partial",
    "Verif.Props.C26_snarimax_lookahead",
    "Verif.Props.C26_snarimax_orders",
    "Verif.Props.C26_flax_snarimax_features",
    "Verif.Props.C26_flax_snarimax_lookahead"
   ],
   "note": "the no-look-ahead claim is false for p>=1 (witness theorems); features, p=0 case and order rejection proved"
  },
  {
   "property": "C27",
   "status": "proved",
   "theorems": [
    "Verif.Props.C27_int64_roundtrip",
    "Verif.Props.C27_int64_domain",
    "Verif.Props.C27_int64_halves",
    "Verif.Props.C27_int64_injective",
    "Verif.Props.C27_int64_surjective",
    "Verif.Props.C27_datetime64_roundtrip"
   ],
   "note": ""
  },
  {
   "property": "C28",
   "status": "partial",
   "theorems": [
    "Verif.Props.C28_less_same_sign_partial",
    "Verif.Props.C28_less_mixed_sign_wrong",
    "Verif.Props.C28_less_strict_total"
   ],
   "note": "false across zero/1970 (C28_less_mixed_sign_wrong: always the opposite answer); same-sign case and strict total order proved"
  },
  {
   "property": "C29",
   "status": "proved",
   "theorems": [
    "Verif.Props.C29_floor_greatest",
    "Verif.Props.C29_floor_idempotent_monotone",
    "Verif.Props.C29_floor_freq",
    "Verif.Props.C29_floor_datekey",
    "Verif.Props.C29_floor_wraps"
   ],
   "note": "all int64 times from the first representable midnight; below it (less than one day, NaT included) the product wraps: C29_floor_wraps"
  },
  {
   "property": "C30",
   "status": "proved",
   "theorems": [
    "Verif.Props.C30_string_roundtrip",
    "Verif.Props.C30_string_order",
    "Verif.Props.C30_string_unseen",
    "Verif.Props.C30_dataset_roundtrip",
    "Verif.Props.C30_string_decode"
   ],
   "note": ""
  },
  {
   "property": "C31",
   "status": "proved",
   "theorems": [
    "Verif.Props.C31_merge_causal",
    "Verif.Props.C31_merge_no_leak",
    "Verif.Props.C31_merge_daily",
    "Verif.Props.C31_needs_ordered_clock"
   ],
   "note": "embedded local clock non-decreasing (needed: C31_needs_ordered_clock)"
  },
  {
   "property": "C32",
   "status": "proved",
   "theorems": [
    "Verif.Props.C32_merge_total",
    "Verif.Props.C32_local_time",
    "Verif.Props.C32_merge_one_per_local",
    "Verif.Props.C32_merge_all_streams"
   ],
   "note": ""
  },
  {
   "property": "C33",
   "status": "proved",
   "theorems": [
    "Verif.Props.C33_ffill_fresh"
   ],
   "note": ""
  },
  {
   "property": "C34",
   "status": "proved",
   "theorems": [
    "Verif.Props.C34_no_ffill_once",
    "Verif.Props.C34_quiet_step"
   ],
   "note": ""
  },
  {
   "property": "C35",
   "status": "partial",
   "theorems": [
    "Verif.Props.C35_buffer_contents_partial",
    "Verif.Props.C35_buffer_full_partial",
    "Verif.Props.C35_buffer_duplicate_witness"
   ],
   "note": "false of the code until the buffer is full: the first observation is recorded twice (witness); exact contents and full-buffer case proved"
  },
  {
   "property": "C36",
   "status": "partial",
   "theorems": [
    "Verif.Props.C36_buffered_one_slot",
    "Verif.Props.C36_buffered_one_feature_partial",
    "Verif.Props.C36_trace_access",
    "Verif.Props.C36_scalar_constant",
    "Verif.Props.C36_array_constant_step0_wrong",
    "Verif.Props.C36_array_constant_partial",
    "Verif.Props.C36_array_constant_iff_partial",
    "Verif.Props.C36_array_constant_step1",
    "Verif.Props.C36_buffered_matrix_wrong",
    "Verif.Props.C36_buffered_matrix_raises_partial",
    "Verif.Props.C36_buffered_matrix_partial",
    "Verif.Props.C36_buffered_matrix_full"
   ],
   "note": "proved for every stream variable with one value per time; false for array variables without time dimension (exact entries read and exactly the steps that are right) and for buffered variables with a feature axis (exactly when it raises, exact entries otherwise)"
  },
  {
   "property": "C37",
   "status": "proved",
   "theorems": [
    "Verif.Props.C37_lift_skip_first",
    "Verif.Props.C37_unroll_stepwise",
    "Verif.Props.C37_unroll_resume",
    "Verif.Props.C37_unroll_causal",
    "Verif.Props.C37_unroll_init",
    "Verif.Props.C37_unroll_haiku_module",
    "Verif.Props.C37_unroll_lift_chunks"
   ],
   "note": "unroll = step by step, resumable, causal; lifted unroll over chunks"
  },
  {
   "property": "C38",
   "status": "proved",
   "theorems": [
    "Verif.Props.C38_static_dynamic",
    "Verif.Props.C38_skip_first"
   ],
   "note": "Python loop = lax.scan on every non-empty sequence; behaviour on empty characterised"
  },
  {
   "property": "C39",
   "status": "proved",
   "theorems": [
    "Verif.Props.C39_step_keys",
    "Verif.Props.C39_resume_repeats_keys",
    "Verif.Props.C39_fori_same_key",
    "Verif.Props.C39_fori_empty",
    "Verif.Props.C39_fori_skip",
    "Verif.Props.C39_fori_agrees",
    "Verif.Props.C39_fori_differs_witness"
   ],
   "note": "key chain of unroll characterised; fori version uses one key, difference exhibited"
  },
  {
   "property": "C40",
   "status": "partial",
   "theorems": [
    "Verif.Props.C40_flax_unroll_actual_partial",
    "Verif.Props.C40_flax_unroll_skip_first_partial",
    "Verif.Props.C40_flax_unroll_given",
    "Verif.Props.C40_flax_unroll_given_skip",
    "Verif.Props.C40_flax_unroll_given_state_partial",
    "Verif.Props.C40_flax_unroll_counts_first_twice"
   ],
   "note": "false as stated (first element consumed twice by init): exact behaviour proved, with skip_first and with given state; counterexample kept"
  },
  {
   "property": "C41",
   "status": "partial",
   "theorems": [
    "Verif.Props.C41_gym_static_unroll_init_partial",
    "Verif.Props.C41_gym_static_unroll_actual_partial",
    "Verif.Props.C41_gym_static_unroll_loses_first",
    "Verif.Props.C41_gym_static_unroll_skip"
   ],
   "note": "false as stated (first output lost): exact behaviour proved, always one output too few"
  },
  {
   "property": "C42",
   "status": "proved",
   "theorems": [
    "Verif.Props.C42_vmap_independent",
    "Verif.Props.C42_vmap_no_crosstalk",
    "Verif.Props.C42_lift_args"
   ],
   "note": ""
  },
  {
   "property": "C43",
   "status": "proved",
   "theorems": [
    "Verif.Props.C43_update_on_event_state",
    "Verif.Props.C43_update_on_event_output",
    "Verif.Props.C43_non_event_inputs_irrelevant"
   ],
   "note": "inner deterministic module; float fill value fits the output dtype"
  },
  {
   "property": "C44",
   "status": "proved",
   "theorems": [
    "Verif.Props.C44_conditional_state",
    "Verif.Props.C44_conditional_output",
    "Verif.Props.C44_conditional_no_event",
    "Verif.Props.C44_conditional_differs_from_haiku"
   ],
   "note": ""
  },
  {
   "property": "C45",
   "status": "proved",
   "theorems": [
    "Verif.Props.C45_streaming_scan_segments",
    "Verif.Props.C45_segments_exist",
    "Verif.Props.C45_streaming_scan_no_reset",
    "Verif.Props.C45_transform_scan",
    "Verif.Props.C45_streaming_scan_default_state_witness",
    "Verif.Props.C45_streaming_scan_key_raises",
    "Verif.Props.C45_streaming_scan_init"
   ],
   "note": "for a given state; default state has already seen the first element (witness), giving a key without a state raises"
  },
  {
   "property": "C46",
   "status": "proved",
   "theorems": [
    "Verif.Props.C46_next_state_first",
    "Verif.Props.C46_next_state_stay",
    "Verif.Props.C46_state_machine_total",
    "Verif.Props.C46_state_machine_modules",
    "Verif.Props.C46_state_machine_output",
    "Verif.Props.C46_undeclared_target_witness"
   ],
   "note": "modules run outside jit; reported states, module inputs and outputs characterised for every history; an instance created in the setup of an enclosing module (the only use that works, C148)"
  },
  {
   "property": "C47",
   "status": "proved",
   "theorems": [
    "Verif.Props.C47_order_permutation",
    "Verif.Props.C47_order_respects_dependencies",
    "Verif.Props.C47_cycle_order_arbitrary"
   ],
   "note": "any iteration order of sets; cyclic case gives a permutation only (witness)"
  },
  {
   "property": "C48",
   "status": "proved",
   "theorems": [
    "Verif.Props.C48_history_is_last",
    "Verif.Props.C48_relevant_history",
    "Verif.Props.C48_top_k_is_oldest",
    "Verif.Props.C48_pad_length"
   ],
   "note": "also: get_relevant_states(top_k) returns the oldest entries"
  },
  {
   "property": "C49",
   "status": "proved",
   "theorems": [
    "Verif.Props.C49_downsample_storage",
    "Verif.Props.C49_downsample_output",
    "Verif.Props.C49_downsample_order_witness"
   ],
   "note": "Exact storage and output; finding: at steps that do not record the output is a rotation (physical order) of the window."
  },
  {
   "property": "C50",
   "status": "proved",
   "theorems": [
    "Verif.Props.C50_sketch_cells",
    "Verif.Props.C50_hashes_differ",
    "Verif.Props.C50_extra_hashes_useless",
    "Verif.Props.C50_never_undercounts",
    "Verif.Props.C50_row_sums",
    "Verif.Props.C50_output_no_estimate_witness",
    "Verif.Props.C50_sketch_output",
    "Verif.Props.C50_hash_functions",
    "Verif.Props.C50_saturates_witness"
   ],
   "note": "Cells are exact counts up to the float32 limit 2^24; witness that the vector returned by the module is not a frequency estimate."
  },
  {
   "property": "C51",
   "status": "proved",
   "theorems": [
    "Verif.Props.C51_newton_inverse",
    "Verif.Props.C51_newton_denominator",
    "Verif.Props.C51_newton_symmetric",
    "Verif.Props.C51_newton_update",
    "Verif.Props.C51_newton_descent"
   ],
   "note": "Exact field arithmetic (no float32 rounding), constant learning rate, one flattened leaf (leaves are independent: block-diagonal)."
  },
  {
   "property": "C52",
   "status": "partial",
   "theorems": [
    "Verif.Props.C52_partition_trainable",
    "Verif.Props.C52_partition_nontrainable",
    "Verif.Props.C52_merge_partition",
    "Verif.Props.C52_nontrainable_never_changes",
    "Verif.Props.C52_optimizer_update",
    "Verif.Props.C52_optimizer_addresses",
    "Verif.Props.C52_flax_merge_partial",
    "Verif.Props.C52_flax_lossless_partial",
    "Verif.Props.C52_flax_loses_witness",
    "Verif.Props.C52_flax_slash_witness",
    "Verif.Props.C52_flax_merge_params_partial"
   ],
   "note": "Haiku: full. Flax: false in general (shallow merge); exact iff and counterexamples proved."
  },
  {
   "property": "C53",
   "status": "proved",
   "theorems": [
    "Verif.Props.C53_online_only_finite_gradients",
    "Verif.Props.C53_online_replacement",
    "Verif.Props.C53_step_counter",
    "Verif.Props.C53_projection",
    "Verif.Props.C53_func_only_finite_gradients",
    "Verif.Props.C53_flax_online_only_finite_gradients",
    "Verif.Props.C53_flax_func_only_finite_gradients"
   ],
   "note": "Leaves are numbers; gradients are an arbitrary function. (see C148, C149 for the configurations that are refused)"
  },
  {
   "property": "C54",
   "status": "proved",
   "theorems": [
    "Verif.Props.C54_trace_faithful",
    "Verif.Props.C54_gym_unroll_log",
    "Verif.Props.C54_result_unique"
   ],
   "note": "exceptions raised by user code inside the loop are not modelled; the callback set is a list (any order)"
  },
  {
   "property": "C55",
   "status": "proved",
   "theorems": [
    "Verif.Props.C55_feedback_equations",
    "Verif.Props.C55_feedback_causal"
   ],
   "note": ""
  },
  {
   "property": "C56",
   "status": "proved",
   "theorems": [
    "Verif.Props.C56_stop_bound",
    "Verif.Props.C56_stop_exact"
   ],
   "note": ""
  },
  {
   "property": "C57",
   "status": "partial",
   "theorems": [
    "Verif.Props.C57_local_restores",
    "Verif.Props.C57_nested_unroll_sees_none",
    "Verif.Props.C57_scopes_add_nothing",
    "Verif.Props.C57_scopes_restore_partial",
    "Verif.Props.C57_reentry_witness",
    "Verif.Props.C57_exceptions_propagate",
    "Verif.Props.C57_register"
   ],
   "note": "restoration is proved when no scope re-enters an already active callback; re-entry is a counterexample (C57_reentry_witness)"
  },
  {
   "property": "C58",
   "status": "proved",
   "theorems": [
    "Verif.Props.C58_transparent",
    "Verif.Props.C58_transparent_stream",
    "Verif.Props.C58_step_count",
    "Verif.Props.C58_state_history",
    "Verif.Props.C58_state_history_fresh",
    "Verif.Props.C58_disabled",
    "Verif.Props.C58_hook_events",
    "Verif.Props.C58_step_interval",
    "Verif.Props.C58_step_interval_hook",
    "Verif.Props.C58_no_tracking",
    "Verif.Props.C58_performance_data",
    "Verif.Props.C58_clear",
    "Verif.Props.C58_wrapped_records",
    "Verif.Props.C58_idle_hook",
    "Verif.Props.C58_add_hook",
    "Verif.Props.C58_remove_hook"
   ],
   "note": "interactive breakpoints are always continued; conditions of different hooks share no state; performance-monitor hooks (which read the debugger's own data) are not modelled"
  },
  {
   "property": "C59",
   "status": "proved",
   "theorems": [
    "Verif.Props.C59_returns",
    "Verif.Props.C59_snapshots",
    "Verif.Props.C59_disabled",
    "Verif.Props.C59_transparent",
    "Verif.Props.C59_tracked_function"
   ],
   "note": "memory readings are inputs"
  },
  {
   "property": "C60",
   "status": "partial",
   "theorems": [
    "Verif.Props.C60_unroll_stream",
    "Verif.Props.C60_skip_first_wrong",
    "Verif.Props.C60_skip_first_partial",
    "Verif.Props.C60_skip_first_iff_partial"
   ],
   "note": "skip_first=False proved; skip_first=True is false with two leaves: exact result and 'correct iff one leaf' proved"
  },
  {
   "property": "C61",
   "status": "partial",
   "theorems": [
    "Verif.Props.C61_batch_skip_first",
    "Verif.Props.C61_batch_static_key",
    "Verif.Props.C61_batch_ignores_key",
    "Verif.Props.C61_batch_agree_partial",
    "Verif.Props.C61_batch_differ_witness",
    "Verif.Props.C61_data_unroll"
   ],
   "note": "holds for the static version; the lax.scan version ignores the key (proved), agreement when the init key is reused"
  },
  {
   "property": "C62",
   "status": "proved",
   "theorems": [
    "Verif.Props.C62_conditional_state_update"
   ],
   "note": "an instance created in the setup of an enclosing module (the only use that works, C148)"
  },
  {
   "property": "C63",
   "status": "proved",
   "theorems": [
    "Verif.Props.C63_module_inputs",
    "Verif.Props.C63_hierarchical_in_order",
    "Verif.Props.C63_hierarchical_out_of_order_witness"
   ],
   "note": "an instance created in the setup of an enclosing module, or an unattached one on callables without variables (C148)"
  },
  {
   "property": "C64",
   "status": "proved",
   "theorems": [
    "Verif.Props.C64_split_combine",
    "Verif.Props.C64_combine_split",
    "Verif.Props.C64_apply_state",
    "Verif.Props.C64_params_collision_witness"
   ],
   "note": ""
  },
  {
   "property": "C65",
   "status": "proved",
   "theorems": [
    "Verif.Props.C65_hsm_outputs",
    "Verif.Props.C65_hsm_order_irrelevant"
   ],
   "note": ""
  },
  {
   "property": "C66",
   "status": "proved",
   "theorems": [
    "Verif.Props.C66_depth_bound",
    "Verif.Props.C66_depth_recursive",
    "Verif.Props.C66_dependencies_influence",
    "Verif.Props.C66_levels",
    "Verif.Props.C66_cycle_witness"
   ],
   "note": ""
  },
  {
   "property": "C67",
   "status": "proved",
   "theorems": [
    "Verif.Props.C67_coordinate_equation",
    "Verif.Props.C67_level_zero_unchanged",
    "Verif.Props.C67_coordinate_bounds"
   ],
   "note": "exact arithmetic"
  },
  {
   "property": "C68",
   "status": "proved",
   "theorems": [
    "Verif.Props.C68_pipeline",
    "Verif.Props.C68_pipeline_leaf",
    "Verif.Props.C68_pipeline_dict",
    "Verif.Props.C68_parallel",
    "Verif.Props.C68_hierarchical",
    "Verif.Props.C68_strategies"
   ],
   "note": "strategy hierarchical modelled, no theorem on its data flow"
  },
  {
   "property": "C69",
   "status": "proved",
   "theorems": [
    "Verif.Props.C69_quantile_monotone",
    "Verif.Props.C69_quantile_ends",
    "Verif.Props.C69_quantile_estimates",
    "Verif.Props.C69_fill_bias_witness"
   ],
   "note": "Exact real arithmetic; the fill value counts as data (witness)."
  },
  {
   "property": "C70",
   "status": "partial",
   "theorems": [
    "Verif.Props.C70_memory_total",
    "Verif.Props.C70_memory_downsample_partial",
    "Verif.Props.C70_memory_storage",
    "Verif.Props.C70_level_usage_partial",
    "Verif.Props.C70_total_usage",
    "Verif.Props.C70_strategies"
   ],
   "note": "False for downsample with factor > maxlen (the report says 0 bytes, 1 entry is stored) and for sketching levels of the hierarchical buffer: exact iff proved for both; totals proved."
  },
  {
   "property": "C71",
   "status": "proved",
   "theorems": [
    "Verif.Props.C71_level_kept",
    "Verif.Props.C71_level_not_kept",
    "Verif.Props.C71_hierarchical_levels",
    "Verif.Props.C71_ewma_strategy"
   ],
   "note": "Non-ewma medium/long levels output 0 between updates: stated exactly (C71_level_not_kept)."
  },
  {
   "property": "C72",
   "status": "proved",
   "theorems": [
    "Verif.Props.C72_online_replay"
   ],
   "note": "Autodiff abstracted to an arbitrary gradient function."
  },
  {
   "property": "C73",
   "status": "proved",
   "theorems": [
    "Verif.Props.C73_learner_prediction_causal",
    "Verif.Props.C73_learner_replay"
   ],
   "note": "Haiku learner. (functions with Haiku state are refused, C149)"
  },
  {
   "property": "C74",
   "status": "partial",
   "theorems": [
    "Verif.Props.C74_flax_model_state_frozen_partial",
    "Verif.Props.C74_flax_counter_witness"
   ],
   "note": "The expected property is false; proved: the model state is frozen at its initial value, with a counterexample. (the model is one whose call is accepted: C150 shows that a Flax module writing its state raises)"
  },
  {
   "property": "C75",
   "status": "partial",
   "theorems": [
    "Verif.Props.C75_flax_learner_never_learns_partial",
    "Verif.Props.C75_simple_learner_never_learns_partial"
   ],
   "note": "The expected property is false; proved: predictions are those of the untrained model on every stream."
  },
  {
   "property": "C76",
   "status": "proved",
   "theorems": [
    "Verif.Props.C76_haiku_unroll"
   ],
   "note": "outputs as recorded values, tree flattening of records not modelled"
  },
  {
   "property": "C77",
   "status": "proved",
   "theorems": [
    "Verif.Props.C77_record_log"
   ],
   "note": ""
  },
  {
   "property": "C78",
   "status": "partial",
   "theorems": [
    "Verif.Props.C78_flax_feedback_memoryless_partial"
   ],
   "note": "the property is false of the code; the exact (memoryless) behaviour is proved"
  },
  {
   "property": "C79",
   "status": "proved",
   "theorems": [
    "Verif.Props.C79_change_detector",
    "Verif.Props.C79_absent_field"
   ],
   "note": "scalar values of an ordered field (no NaN)"
  },
  {
   "property": "C80",
   "status": "proved",
   "theorems": [
    "Verif.Props.C80_transparent",
    "Verif.Props.C80_records",
    "Verif.Props.C80_disabled",
    "Verif.Props.C80_deltas_telescope",
    "Verif.Props.C80_detect_leak"
   ],
   "note": ""
  },
  {
   "property": "C81",
   "status": "partial",
   "theorems": [
    "Verif.Props.C81_counts_twice_partial",
    "Verif.Props.C81_mean_halved_partial",
    "Verif.Props.C81_mean_witness"
   ],
   "note": "the property is false of the code; the exact behaviour is proved"
  },
  {
   "property": "C82",
   "status": "partial",
   "theorems": [
    "Verif.Props.C82_leak_sound_partial",
    "Verif.Props.C82_no_false_alarm",
    "Verif.Props.C82_steady_growth",
    "Verif.Props.C82_rate_witness"
   ],
   "note": "soundness and detection proved; the reported rate is not MB per step (C82_rate_witness)"
  },
  {
   "property": "C83",
   "status": "proved",
   "theorems": [
    "Verif.Props.C83_partition"
   ],
   "note": "leaf sizes are byte counts; the exception fallback is not modelled"
  },
  {
   "property": "C84",
   "status": "proved",
   "theorems": [
    "Verif.Props.C84_online_follows_optimizer",
    "Verif.Props.C84_func_follows_optimizer",
    "Verif.Props.C84_flax_online_follows_optimizer",
    "Verif.Props.C84_flax_func_follows_optimizer"
   ],
   "note": "Haiku: any predicate; Flax OnlineOptimizer: all parameters trainable and keys without slash (mixing loses leaves, see C52); Flax FuncOptimizer: any predicate with at least one trainable leaf (the Flax optimisers need an explicit predicate, C148; Haiku FuncOptimizer a function without state, C149)"
  },
  {
   "property": "C85",
   "status": "proved",
   "theorems": [
    "Verif.Props.C85_apply_is_unroll",
    "Verif.Props.C85_apply_module",
    "Verif.Props.C85_one_record_per_local",
    "Verif.Props.C85_local_row",
    "Verif.Props.C85_ffill_asof",
    "Verif.Props.C85_no_ffill",
    "Verif.Props.C85_buffered",
    "Verif.Props.C85_scalar",
    "Verif.Props.C85_accepts",
    "Verif.Props.C85_rejects_time_not_first"
   ],
   "note": "end-to-end pipeline model: merge, encode, access, unroll; WellFormed example given"
  },
  {
   "property": "C86",
   "status": "proved",
   "theorems": [
    "Verif.Props.C86_apply_causal",
    "Verif.Props.C86_boundary"
   ],
   "note": "for all datasets, modules and configurations; C86_boundary shows exactness"
  },
  {
   "property": "C87",
   "status": "proved",
   "theorems": [
    "Verif.Props.C87_dataarray_keeps",
    "Verif.Props.C87_series_keeps",
    "Verif.Props.C87_dataframe_keeps",
    "Verif.Props.C87_shared_dims",
    "Verif.Props.C87_own_dims",
    "Verif.Props.C87_pair_confusion",
    "Verif.Props.C87_dict_of_tuples",
    "Verif.Props.C87_frame_axes",
    "Verif.Props.C87_array_of_names",
    "Verif.Props.C87_single_name",
    "Verif.Props.C87_default_names"
   ],
   "note": "full statement for all structures/frames; pitfalls are separate theorems"
  },
  {
   "property": "C88",
   "status": "proved",
   "theorems": [
    "Verif.Props.C88_dataframe",
    "Verif.Props.C88_dataarray",
    "Verif.Props.C88_series",
    "Verif.Props.C88_dataframe_module",
    "Verif.Props.C88_skip_first_raises",
    "Verif.Props.C88_dataset_default_raises",
    "Verif.Props.C88_pair"
   ],
   "note": "full statement for all structures/frames; pitfalls are separate theorems"
  },
  {
   "property": "C89",
   "status": "proved",
   "theorems": [
    "Verif.Props.C89_auto_dims",
    "Verif.Props.C89_auto_format",
    "Verif.Props.C89_tree",
    "Verif.Props.C89_ambiguous"
   ],
   "note": "full statement for all structures/frames; pitfalls are separate theorems"
  },
  {
   "property": "C90",
   "status": "proved",
   "theorems": [
    "Verif.Props.C90_ewm_frame",
    "Verif.Props.C90_ewm_cell",
    "Verif.Props.C90_ewm_series"
   ],
   "note": "full statement for all structures/frames; pitfalls are separate theorems"
  },
  {
   "property": "C91",
   "status": "proved",
   "theorems": [
    "Verif.Props.C91_replay",
    "Verif.Props.C91_third_argument_ignored",
    "Verif.Props.C91_sgd_scale",
    "Verif.Props.C91_sgd_converges"
   ],
   "note": "gradients: any function in C91_replay, Mathlib's deriv over the reals for SGD convergence"
  },
  {
   "property": "C92",
   "status": "partial",
   "theorems": [
    "Verif.Props.C92_prediction_unscaled_partial",
    "Verif.Props.C92_prediction_witness"
   ],
   "note": "the property is false of the code; exact behaviour and witness proved"
  },
  {
   "property": "C93",
   "status": "partial",
   "theorems": [
    "Verif.Props.C93_feed_back_partial",
    "Verif.Props.C93_merge_back",
    "Verif.Props.C93_params_lost",
    "Verif.Props.C93_other_collection_raises",
    "Verif.Props.C93_stateless",
    "Verif.Props.C93_params_lost_witness"
   ],
   "note": "false with parameters (C93_params_lost, witness); proved without parameters and for merged variables"
  },
  {
   "property": "C94",
   "status": "partial",
   "theorems": [
    "Verif.Props.C94_streaming_scan_stateless_partial",
    "Verif.Props.C94_streaming_scan_reset_raises"
   ],
   "note": "the property is false of the code; exact behaviour proved"
  },
  {
   "property": "C95",
   "status": "proved",
   "theorems": [
    "Verif.Props.C95_context",
    "Verif.Props.C95_memory_window"
   ],
   "note": ""
  },
  {
   "property": "C96",
   "status": "partial",
   "theorems": [
    "Verif.Props.C96_hierarchical_ignores_function_partial",
    "Verif.Props.C96_state_machine_ignores_function_partial",
    "Verif.Props.C96_conditional_update_partial"
   ],
   "note": "the property is false of the code; exact result of the wrappers' bodies proved; in the pinned version the wrappers raise before (C148_decorators_raise_partial)"
  },
  {
   "property": "C97",
   "status": "proved",
   "theorems": [
    "Verif.Props.C97_vmap_mean",
    "Verif.Props.C97_mean_bounds",
    "Verif.Props.C97_add_batch"
   ],
   "note": "exact arithmetic; non-empty batches"
  },
  {
   "property": "C98",
   "status": "proved",
   "theorems": [
    "Verif.Props.C98_ewma_superposition",
    "Verif.Props.C98_ewma_affine",
    "Verif.Props.C98_ewma_monotone",
    "Verif.Props.C98_ewma_forgets"
   ],
   "note": ""
  },
  {
   "property": "C99",
   "status": "proved",
   "theorems": [
    "Verif.Props.C99_bollinger",
    "Verif.Props.C99_bollinger_position"
   ],
   "note": ""
  },
  {
   "property": "C100",
   "status": "proved",
   "theorems": [
    "Verif.Props.C100_macd_units",
    "Verif.Props.C100_macd",
    "Verif.Props.C100_macd_constant"
   ],
   "note": ""
  },
  {
   "property": "C101",
   "status": "partial",
   "theorems": [
    "Verif.Props.C101_regime_label",
    "Verif.Props.C101_regime_signal_partial",
    "Verif.Props.C101_regime_has_no_effect"
   ],
   "note": "label proved; the smoothing adapts only on the first call (C101_regime_has_no_effect); C101_regime_signal_partial gives the exact signal"
  },
  {
   "property": "C102",
   "status": "proved",
   "theorems": [
    "Verif.Props.C102_breakout_values",
    "Verif.Props.C102_breakout_events",
    "Verif.Props.C102_breakout_before_first_event"
   ],
   "note": ""
  },
  {
   "property": "C103",
   "status": "proved",
   "theorems": [
    "Verif.Props.C103_position_limit",
    "Verif.Props.C103_trading_system",
    "Verif.Props.C103_band_width"
   ],
   "note": ""
  },
  {
   "property": "C104",
   "status": "proved",
   "theorems": [
    "Verif.Props.C104_position_size",
    "Verif.Props.C104_position_size_extreme"
   ],
   "note": ""
  },
  {
   "property": "C105",
   "status": "partial",
   "theorems": [
    "Verif.Props.C105_cache_init_partial",
    "Verif.Props.C105_high_price_signal_raises"
   ],
   "note": "exact condition proved; the shipped examples violate it (C105_high_price_signal_raises)"
  },
  {
   "property": "C106",
   "status": "partial",
   "theorems": [
    "Verif.Props.C106_portfolio_independent",
    "Verif.Props.C106_portfolio_not_by_name",
    "Verif.Props.C106_portfolio_more_assets_raise",
    "Verif.Props.C106_portfolio_by_name_partial"
   ],
   "note": "false when calls reorder the assets (C106_portfolio_not_by_name); proved for a fixed order"
  },
  {
   "property": "C107",
   "status": "proved",
   "theorems": [
    "Verif.Props.C107_loop_eq_scan",
    "Verif.Props.C107_loop_resume",
    "Verif.Props.C107_loop_is_run"
   ],
   "note": ""
  },
  {
   "property": "C108",
   "status": "partial",
   "theorems": [
    "Verif.Props.C108_returns_not_cumulative",
    "Verif.Props.C108_returns_value_partial",
    "Verif.Props.C108_returns_not_cumulative_sum"
   ],
   "note": "false (C108_returns_not_cumulative, C108_returns_not_cumulative_sum); exact values in C108_returns_value_partial"
  },
  {
   "property": "C109",
   "status": "proved",
   "theorems": [
    "Verif.Props.C109_accessor_chunks",
    "Verif.Props.C109_accessor_new_column_nan",
    "Verif.Props.C109_accessor_is_ewma",
    "Verif.Props.C109_series_name",
    "Verif.Props.C109_accessor_errors"
   ],
   "note": "includes the behaviour on columns that come and go (NaN for ever)"
  },
  {
   "property": "C110",
   "status": "proved",
   "theorems": [
    "Verif.Props.C110_event_keeps_new_state",
    "Verif.Props.C110_no_event_restores",
    "Verif.Props.C110_slash_in_state_name"
   ],
   "note": "state names without slash; C110_slash_in_state_name shows the assumption is needed"
  },
  {
   "property": "C111",
   "status": "partial",
   "theorems": [
    "Verif.Props.C111_callbacks_argument_partial",
    "Verif.Props.C111_callbacks_not_additional",
    "Verif.Props.C111_active_not_run"
   ],
   "note": "false of the code: the given callbacks replace the active ones and objects raise; exact behaviour in the _partial theorem"
  },
  {
   "property": "C112",
   "status": "partial",
   "theorems": [
    "Verif.Props.C112_progress_bar",
    "Verif.Props.C112_reused_bar_partial"
   ],
   "note": "first use counts every step; reuse shown not to count (closed tqdm bar ignores updates)"
  },
  {
   "property": "C113",
   "status": "proved",
   "theorems": [
    "Verif.Props.C113_get_outputs",
    "Verif.Props.C113_get_outputs_empty",
    "Verif.Props.C113_series"
   ],
   "note": ""
  },
  {
   "property": "C114",
   "status": "proved",
   "theorems": [
    "Verif.Props.C114_passes_iff",
    "Verif.Props.C114_length_not_checked",
    "Verif.Props.C114_reflexive_iff",
    "Verif.Props.C114_not_symmetric",
    "Verif.Props.C114_tolerance",
    "Verif.Props.C114_different_lengths"
   ],
   "note": "one-dimensional arrays"
  },
  {
   "property": "C115",
   "status": "proved",
   "theorems": [
    "Verif.Props.C115_schema",
    "Verif.Props.C115_check_detects",
    "Verif.Props.C115_unique_dtype"
   ],
   "note": ""
  },
  {
   "property": "C116",
   "status": "proved",
   "theorems": [
    "Verif.Props.C116_signal_processor",
    "Verif.Props.C116_signal_bounded",
    "Verif.Props.C116_signal_constant"
   ],
   "note": ""
  },
  {
   "property": "C117",
   "status": "proved",
   "theorems": [
    "Verif.Props.C117_smoother",
    "Verif.Props.C117_smoother_warmup",
    "Verif.Props.C117_baseline"
   ],
   "note": ""
  },
  {
   "property": "C118",
   "status": "proved",
   "theorems": [
    "Verif.Props.C118_adaptive_prediction",
    "Verif.Props.C118_ensemble_prediction",
    "Verif.Props.C118_ensemble_ignores_target"
   ],
   "note": ""
  },
  {
   "property": "C119",
   "status": "proved",
   "theorems": [
    "Verif.Props.C119_tree_lag_leafwise",
    "Verif.Props.C119_tree_lag",
    "Verif.Props.C119_flax_tree_lag",
    "Verif.Props.C119_tree_lag_any"
   ],
   "note": ""
  },
  {
   "property": "C120",
   "status": "proved",
   "theorems": [
    "Verif.Props.C120_session",
    "Verif.Props.C120_summary",
    "Verif.Props.C120_median_halves",
    "Verif.Props.C120_bounds",
    "Verif.Props.C120_empty",
    "Verif.Props.C120_module_summary"
   ],
   "note": "statistics against independent specifications (sorted permutation for the median, membership and bounds for max/min)"
  },
  {
   "property": "C121",
   "status": "proved",
   "theorems": [
    "Verif.Props.C121_advice",
    "Verif.Props.C121_advice_iff",
    "Verif.Props.C121_constant_calls_flagged",
    "Verif.Props.C121_constant_memory_flagged",
    "Verif.Props.C121_data_size",
    "Verif.Props.C121_numpy_inputs_ignored"
   ],
   "note": "exact list of recommendations; findings about constant durations, resident memory and numpy inputs proved"
  },
  {
   "property": "C122",
   "status": "proved",
   "theorems": [
    "Verif.Props.C122_profiler_reset",
    "Verif.Props.C122_tracker_reset",
    "Verif.Props.C122_debugger_clear_keeps_counter"
   ],
   "note": "simulation between the reset and the new profiler"
  },
  {
   "property": "C123",
   "status": "proved",
   "theorems": [
    "Verif.Props.C123_session",
    "Verif.Props.C123_count",
    "Verif.Props.C123_memory_summary",
    "Verif.Props.C123_severity",
    "Verif.Props.C123_severity_of_leak",
    "Verif.Props.C123_module_analysis"
   ],
   "note": "summary of the retained snapshots of the requests in force"
  },
  {
   "property": "C124",
   "status": "partial",
   "theorems": [
    "Verif.Props.C124_summary",
    "Verif.Props.C124_hooks",
    "Verif.Props.C124_export",
    "Verif.Props.C124_value_threshold",
    "Verif.Props.C124_monitor",
    "Verif.Props.C124_monitor_timed_partial",
    "Verif.Props.C124_monitor_stale_witness",
    "Verif.Props.C124_monitor_untracked",
    "Verif.Props.C124_export_error"
   ],
   "note": "summary, export and value_threshold proved; the monitor is exact only when every step is timed (C124_monitor_timed_partial); C124_monitor gives its exact behaviour and C124_monitor_stale_witness the failure"
  },
  {
   "property": "C125",
   "status": "partial",
   "theorems": [
    "Verif.Props.C125_history_value",
    "Verif.Props.C125_history_isolated_partial",
    "Verif.Props.C125_data_isolated_partial",
    "Verif.Props.C125_hook_isolated_partial",
    "Verif.Props.C125_hook_shares_witness",
    "Verif.Props.C125_numpy_shared_witness"
   ],
   "note": "false of the code (witnesses); exact conditions for isolation proved: no numpy array for the history, no mutable entry for hook events"
  },
  {
   "property": "C126",
   "status": "partial",
   "theorems": [
    "Verif.Props.C126_result_stable_partial",
    "Verif.Props.C126_early_result",
    "Verif.Props.C126_tracks_profiler",
    "Verif.Props.C126_result_changes_witness"
   ],
   "note": "false of the code (C126_result_changes_witness); proved when no slow recording and no reset follows, and for results made before the first bottleneck"
  },
  {
   "property": "C127",
   "status": "proved",
   "theorems": [
    "Verif.Props.C127_tracker_contents",
    "Verif.Props.C127_steps_ordered",
    "Verif.Props.C127_queries_silent"
   ],
   "note": "session invariant"
  },
  {
   "property": "C128",
   "status": "partial",
   "theorems": [
    "Verif.Props.C128_flags_ignored",
    "Verif.Props.C128_flag_false",
    "Verif.Props.C128_flags_partial"
   ],
   "note": "false of the code: the flags are ignored (C128_flags_ignored, C128_flag_false)"
  },
  {
   "property": "C129",
   "status": "partial",
   "theorems": [
    "Verif.Props.C129_zero_returns_all",
    "Verif.Props.C129_negative",
    "Verif.Props.C129_recent_partial",
    "Verif.Props.C129_zero_false"
   ],
   "note": "false for n = 0 (C129_zero_returns_all); proved for n >= 1"
  },
  {
   "property": "C130",
   "status": "partial",
   "theorems": [
    "Verif.Props.C130_frame",
    "Verif.Props.C130_tracker_restored",
    "Verif.Props.C130_first_failure",
    "Verif.Props.C130_frames_grow",
    "Verif.Props.C130_last_step_never_shown",
    "Verif.Props.C130_exception_loses_data",
    "Verif.Props.C130_animation_partial"
   ],
   "note": "false: last step never shown, exceptions lose data; proved: frame contents, growth, restoration when nothing raises"
  },
  {
   "property": "C131",
   "status": "partial",
   "theorems": [
    "Verif.Props.C131_flow_rate",
    "Verif.Props.C131_flow_rate_partial",
    "Verif.Props.C131_last_point_ignored"
   ],
   "note": "false for the run with the last point; exact characterisation proved"
  },
  {
   "property": "C132",
   "status": "proved",
   "theorems": [
    "Verif.Props.C132_pipeline_data",
    "Verif.Props.C132_total_calls",
    "Verif.Props.C132_unregistered_ignored",
    "Verif.Props.C132_alerts",
    "Verif.Props.C132_performance"
   ],
   "note": "session invariant; broadcast to browsers not modelled"
  },
  {
   "property": "C133",
   "status": "partial",
   "theorems": [
    "Verif.Props.C133_bokeh_partial",
    "Verif.Props.C133_zero_unbounded",
    "Verif.Props.C133_bound_false",
    "Verif.Props.C133_jupyter"
   ],
   "note": "false for Bokeh with max_points = 0 (C133_zero_unbounded); proved for max_points >= 1 and for Jupyter"
  },
  {
   "property": "C134",
   "status": "partial",
   "theorems": [
    "Verif.Props.C134_stage_partial",
    "Verif.Props.C134_stage_lost"
   ],
   "note": "false for names containing ' Data' (C134_stage_lost); proved for all others"
  },
  {
   "property": "C135",
   "status": "proved",
   "theorems": [
    "Verif.Props.C135_module_dictionaries",
    "Verif.Props.C135_fallbacks",
    "Verif.Props.C135_graph_nodes"
   ],
   "note": "All parameter trees with Flax names. The oracle strHas stands for the search in str(params)."
  },
  {
   "property": "C136",
   "status": "partial",
   "theorems": [
    "Verif.Props.C136_edges_join_nodes_partial",
    "Verif.Props.C136_no_edges"
   ],
   "note": "False of the code (C136_no_edges: there is never an edge). Proved: edges join nodes."
  },
  {
   "property": "C137",
   "status": "proved",
   "theorems": [
    "Verif.Props.C137_levels",
    "Verif.Props.C137_result"
   ],
   "note": "Existence (termination) in C137_levels, and the same facts for any run that returned in C137_result."
  },
  {
   "property": "C138",
   "status": "partial",
   "theorems": [
    "Verif.Props.C138_nesting_is_spurious",
    "Verif.Props.C138_flat_partial"
   ],
   "note": "False of the code (C138_nesting_is_spurious, with an example that nests). Proved: flat when no Module name begins another identifier."
  },
  {
   "property": "C139",
   "status": "partial",
   "theorems": [
    "Verif.Props.C139_rendering_partial",
    "Verif.Props.C139_box",
    "Verif.Props.C139_cytoscape_ids_clash",
    "Verif.Props.C139_cytoscape_ids_partial"
   ],
   "note": "Graphviz part fully proved; false for Cytoscape identifiers (C139_cytoscape_ids_clash), proved without underscores."
  },
  {
   "property": "C140",
   "status": "proved",
   "theorems": [
    "Verif.Props.C140_summary"
   ],
   "note": ""
  },
  {
   "property": "C141",
   "status": "proved",
   "theorems": [
    "Verif.Props.C141_clusters",
    "Verif.Props.C141_cluster_names",
    "Verif.Props.C141_name_clash"
   ],
   "note": "With the hypothesis on names; C141_name_clash shows it is needed."
  },
  {
   "property": "C142",
   "status": "proved",
   "theorems": [
    "Verif.Props.C142_types"
   ],
   "note": "strHas is the search in str(params)"
  },
  {
   "property": "C143",
   "status": "proved",
   "theorems": [
    "Verif.Props.C143_rejects",
    "Verif.Props.C143_mask_mean_none",
    "Verif.Props.C143_mask_mean_axis",
    "Verif.Props.C143_mask_mean_bad_axis"
   ],
   "note": "any rank, any axis, refusals included"
  },
  {
   "property": "C144",
   "status": "partial",
   "theorems": [
    "Verif.Props.C144_rejects",
    "Verif.Props.C144_mask_std_centered",
    "Verif.Props.C144_mask_std_axis_exact",
    "Verif.Props.C144_mask_std_axis_partial",
    "Verif.Props.C144_mask_std_none",
    "Verif.Props.C144_axis1_refused",
    "Verif.Props.C144_axis1_square",
    "Verif.Props.C144_axis1_wrong"
   ],
   "note": "false of the code for axis=1 (C144_axis1_wrong); exact behaviour for every rank and axis: C144_mask_std_axis_exact; correct cases: _none, _centered, _axis_partial"
  },
  {
   "property": "C145",
   "status": "partial",
   "theorems": [
    "Verif.Props.C145_mask_normalize_axis_partial",
    "Verif.Props.C145_mask_normalize_none",
    "Verif.Props.C145_axis1_exact",
    "Verif.Props.C145_axis1_wrong"
   ],
   "note": "false of the code (C145_axis1_wrong); exact for axis=1: C145_axis1_exact; correct cases: _none, _axis_partial"
  },
  {
   "property": "C146",
   "status": "partial",
   "theorems": [
    "Verif.Props.C146_apply_same",
    "Verif.Props.C146_apply_bad_axis",
    "Verif.Props.C146_mean_axis_partial",
    "Verif.Props.C146_mean_none",
    "Verif.Props.C146_std_axis_partial",
    "Verif.Props.C146_mean_column_mask_raises",
    "Verif.Props.C146_std_none",
    "Verif.Props.C146_apply_row_mask_partial",
    "Verif.Props.C146_apply_column_mask_partial",
    "Verif.Props.C146_mean_row_mask",
    "Verif.Props.C146_mismatch_accepted",
    "Verif.Props.C146_std_rank3_refused"
   ],
   "note": "false of the code (C146_mismatch_accepted, C146_mean_column_mask_raises, C146_std_rank3_refused); agreement proved on masks of the data's shape and on per-row / per-column masks in ApplyMask"
  },
  {
   "property": "C147",
   "status": "partial",
   "theorems": [
    "Verif.Props.C147_flax_normalize_axis0_partial",
    "Verif.Props.C147_flax_normalize_none",
    "Verif.Props.C147_flax_axis1_exact",
    "Verif.Props.C147_flax_axis1_wrong"
   ],
   "note": "false of the code (C147_flax_axis1_wrong); exact for axis=1, correct for axis 0 of any rank and None"
  },
  {
   "property": "C148",
   "status": "partial",
   "theorems": [
    "Verif.Props.C148_hierarchical_state_partial",
    "Verif.Props.C148_conditional_state_update_partial",
    "Verif.Props.C148_streaming_state_machine_partial",
    "Verif.Props.C148_generated",
    "Verif.Props.C148_generated_field_assigned",
    "Verif.Props.C148_online_optimizer_default_partial",
    "Verif.Props.C148_update_params_default_partial",
    "Verif.Props.C148_func_optimizer_default_partial",
    "Verif.Props.C148_hierarchical_machine_names",
    "Verif.Props.C148_composite_manager",
    "Verif.Props.C148_decorators_raise_partial",
    "Verif.Props.C148_unattached_calls_partial",
    "Verif.Props.C148_signatures",
    "Verif.Props.C148_defaults",
    "Verif.Props.C148_func_optimizer_setup"
   ],
   "note": "the general property is false of the code; exact outcome proved for every class concerned, under the trusted flax lifecycle rules"
  },
  {
   "property": "C149",
   "status": "partial",
   "theorems": [
    "Verif.Props.C149_func_optimizer_stateful_partial",
    "Verif.Props.C149_func_optimizer_stateless",
    "Verif.Props.C149_online_optimizer_accepts",
    "Verif.Props.C149_predicate_none_partial"
   ],
   "note": "the property is false of the code; exact outcome proved"
  },
  {
   "property": "C150",
   "status": "partial",
   "theorems": [
    "Verif.Props.C150_flax_module_writes_partial",
    "Verif.Props.C150_plain_pair_partial",
    "Verif.Props.C150_plain_restarts_partial",
    "Verif.Props.C150_flax_module_stateless"
   ],
   "note": "the property is false of the code; exact outcome proved"
  },
  {
   "property": "C151",
   "status": "partial",
   "theorems": [
    "Verif.Props.C151_predicate_sees_collections_partial",
    "Verif.Props.C151_module_name_predicate_trains_nothing_partial"
   ],
   "note": "the property is false of the code; exact outcome proved"
  },
  {
   "property": "C152",
   "status": "proved",
   "theorems": [
    "Verif.Props.C152_columns",
    "Verif.Props.C152_unrolled_options"
   ],
   "note": ""
  },
  {
   "property": "C153",
   "status": "partial",
   "theorems": [
    "Verif.Props.C153_dynamic_lengths",
    "Verif.Props.C153_static_lengths_partial",
    "Verif.Props.C153_static_scan_without_xs_partial"
   ],
   "note": "the property is false of the code; exact behaviour proved"
  },
  {
   "property": "C154",
   "status": "proved",
   "theorems": [
    "Verif.Props.C154_refused",
    "Verif.Props.C154_init_needs_key",
    "Verif.Props.C154_init_keyless",
    "Verif.Props.C154_vmap_init_keys",
    "Verif.Props.C154_vmap_keyless",
    "Verif.Props.C154_vmap_split",
    "Verif.Props.C154_vmap_distinct",
    "Verif.Props.C154_unroll_keys",
    "Verif.Props.C154_unroll_init"
   ],
   "note": "key sequence of Haiku (next_rng_key / maybe_next_rng_key, hk.scan threading keys) is trusted"
  },
  {
   "property": "C155",
   "status": "proved",
   "theorems": [
    "Verif.Props.C155_prompt",
    "Verif.Props.C155_continue",
    "Verif.Props.C155_quit",
    "Verif.Props.C155_decorated"
   ],
   "note": "strip().lower() is a parameter; removes the assumption of C58 that breakpoints are continued"
  },
  {
   "property": "C156",
   "status": "proved",
   "theorems": [
    "Verif.Props.C156_transparent"
   ],
   "note": ""
  },
  {
   "property": "C157",
   "status": "partial",
   "theorems": [
    "Verif.Props.C157_name_required_partial",
    "Verif.Props.C157_stack_builds_partial",
    "Verif.Props.C157_scan_lost_partial"
   ],
   "note": "false of the code: exactly the stacks whose innermost decorator has a module name can be built, and scan is always lost"
  },
  {
   "property": "C158",
   "status": "proved",
   "theorems": [
    "Verif.Props.C158_dot_roundtrip",
    "Verif.Props.C158_label_rows",
    "Verif.Props.C158_edge_line",
    "Verif.Props.C158_node_line"
   ],
   "note": "round trip through an independent reader of DOT statements"
  },
  {
   "property": "C159",
   "status": "partial",
   "theorems": [
    "Verif.Props.C159_dot_main_node_partial"
   ],
   "note": "false of the code: exact characterisation of the example inputs for which the exported statement is read back"
  },
  {
   "property": "C160",
   "status": "proved",
   "theorems": [
    "Verif.Props.C160_heatmap"
   ],
   "note": ""
  },
  {
   "property": "C161",
   "status": "proved",
   "theorems": [
    "Verif.Props.C161_time_series"
   ],
   "note": ""
  },
  {
   "property": "C162",
   "status": "proved",
   "theorems": [
    "Verif.Props.C162_distribution"
   ],
   "note": ""
  },
  {
   "property": "C163",
   "status": "partial",
   "theorems": [
    "Verif.Props.C163_performance_partial",
    "Verif.Props.C163_correlation_partial"
   ],
   "note": "false of the code: both panels plot random numbers whatever was recorded; exact contents proved"
  },
  {
   "property": "C164",
   "status": "proved",
   "theorems": [
    "Verif.Props.C164_serialize"
   ],
   "note": ""
  },
  {
   "property": "C165",
   "status": "proved",
   "theorems": [
    "Verif.Props.C165_parameters",
    "Verif.Props.C165_callbacks",
    "Verif.Props.C165_widgets",
    "Verif.Props.C165_widget_value",
    "Verif.Props.C165_dropdown_default"
   ],
   "note": ""
  },
  {
   "property": "C166",
   "status": "proved",
   "theorems": [
    "Verif.Props.C166_text_plot"
   ],
   "note": ""
  },
  {
   "property": "C167",
   "status": "proved",
   "theorems": [
    "Verif.Props.C167_agent_reset",
    "Verif.Props.C167_agent_reset_deterministic",
    "Verif.Props.C167_agent_episode",
    "Verif.Props.C167_agent_failed_call",
    "Verif.Props.C167_env_data",
    "Verif.Props.C167_env_episode",
    "Verif.Props.C167_env_len",
    "Verif.Props.C167_env_first_key",
    "Verif.Props.C167_env_failed_step"
   ],
   "note": "objects with their key sequences, resets and exceptions; keys are an arbitrary sequence"
  },
  {
   "property": "C168",
   "status": "partial",
   "theorems": [
    "Verif.Props.C168_no_compilation_counted_partial",
    "Verif.Props.C168_marked_steps_partial"
   ],
   "note": "false of the code: _setup_jit_tracking installs nothing and profile_streaming never marks its steps, so compilations are never counted unless the program marks a start_step block itself"
  },
  {
   "property": "C169",
   "status": "partial",
   "theorems": [
    "Verif.Props.C169_block",
    "Verif.Props.C169_calls_counted_twice_partial",
    "Verif.Props.C169_sizes"
   ],
   "note": "true of start_step blocks; false of profile_streaming, which records a returning call twice (average halved, minimum 0)"
  },
  {
   "property": "C170",
   "status": "proved",
   "theorems": [
    "Verif.Props.C170_buffer",
    "Verif.Props.C170_lag",
    "Verif.Props.C170_diff",
    "Verif.Props.C170_ffill",
    "Verif.Props.C170_pct_change",
    "Verif.Props.C170_rolling_mean",
    "Verif.Props.C170_ohlc",
    "Verif.Props.C170_ewmvar",
    "Verif.Props.C170_ewmcov",
    "Verif.Props.C170_arma"
   ],
   "note": "from the specifications of the modules, or by simulation"
  },
  {
   "property": "C171",
   "status": "proved",
   "theorems": [
    "Verif.Props.C171_lag_stream",
    "Verif.Props.C171_lag_lag",
    "Verif.Props.C171_lag_diff",
    "Verif.Props.C171_ffill_lag",
    "Verif.Props.C171_rolling_mean_one",
    "Verif.Props.C171_ewma_no_memory",
    "Verif.Props.C171_ewmvar_no_memory"
   ],
   "note": "from the specifications of the modules"
  },
  {
   "property": "C172",
   "status": "partial",
   "theorems": [
    "Verif.Props.C172_page_partial",
    "Verif.Props.C172_tag_names_hidden"
   ],
   "note": "False of the code: names that look like tags (<lambda>) are not shown (C172_tag_names_hidden); true for names without '<'."
  },
  {
   "property": "C173",
   "status": "proved",
   "theorems": [
    "Verif.Props.C173_text_lines",
    "Verif.Props.C173_shown_parameters"
   ],
   "note": "Lines of the text and parameters shown."
  },
  {
   "property": "C174",
   "status": "partial",
   "theorems": [
    "Verif.Props.C174_other_analysers_partial",
    "Verif.Props.C174_result_overwritten",
    "Verif.Props.C174_summary_overwritten"
   ],
   "note": "False of the code: the analyser returns its own dictionary, overwritten by its next analysis (C174_result_overwritten, C174_summary_overwritten); holds across different analysers."
  },
  {
   "property": "C175",
   "status": "partial",
   "theorems": [
    "Verif.Props.C175_connected",
    "Verif.Props.C175_delivery_partial",
    "Verif.Props.C175_subscribe_answer",
    "Verif.Props.C175_subscriptions_ignored"
   ],
   "note": "False of the code: subscriptions have no effect, everything is broadcast (C175_subscriptions_ignored); the deliveries to connected browsers are characterised exactly."
  },
  {
   "property": "C176",
   "status": "partial",
   "theorems": [
    "Verif.Props.C176_profiler_partial",
    "Verif.Props.C176_tracker_partial",
    "Verif.Props.C176_debugger_partial",
    "Verif.Props.C176_reset_after_disable",
    "Verif.Props.C176_profiler_counts"
   ],
   "note": "False of the code when a thread switches the object off and resets it: the flag is read outside the lock (C176_reset_after_disable). Proved for all schedules when the threads do not both reset and switch off."
  },
  {
   "property": "C177",
   "status": "partial",
   "theorems": [
    "Verif.Props.C177_report_partial",
    "Verif.Props.C177_report_race"
   ],
   "note": "False of the code with concurrent calls: the leaks are read outside the lock (C177_report_race). Proved while nothing else runs."
  },
  {
   "property": "C178",
   "status": "proved",
   "theorems": [
    "Verif.Props.C178_ieee",
    "Verif.Props.C178_exact_ewma",
    "Verif.Props.C178_exact_flax_ewma",
    "Verif.Props.C178_exact_numba",
    "Verif.Props.C178_ewma_rounding",
    "Verif.Props.C178_flax_ewma_rounding",
    "Verif.Props.C178_ewma_rounding_missing",
    "Verif.Props.C178_flax_ewma_rounding_missing",
    "Verif.Props.C178_float32"
   ],
   "note": ""
  },
  {
   "property": "C179",
   "status": "proved",
   "theorems": [
    "Verif.Props.C179_exact_ewmvar",
    "Verif.Props.C179_ewmvar_notNeg_no",
    "Verif.Props.C179_ewmvar_notNeg_linear",
    "Verif.Props.C179_ewmvar_notNeg_yes",
    "Verif.Props.C179_ieee",
    "Verif.Props.C179_float32",
    "Verif.Props.C179_large_com_nan",
    "Verif.Props.C179_float32_large_com"
   ],
   "note": ""
  },
  {
   "property": "C180",
   "status": "partial",
   "theorems": [
    "Verif.Props.C180_numba_constant",
    "Verif.Props.C180_constant_drifts_partial"
   ],
   "note": "proved for numba (every rounding); false of the Haiku module in float32 (witness)"
  },
  {
   "property": "C181",
   "status": "proved",
   "theorems": [
    "Verif.Props.C181_rolling_mean_rounding",
    "Verif.Props.C181_flax_rolling_mean_rounding"
   ],
   "note": ""
  },
  {
   "property": "C182",
   "status": "proved",
   "theorems": [
    "Verif.Props.C182_ewmcov_rounding",
    "Verif.Props.C182_ewmcov_rounding_missing",
    "Verif.Props.C182_variance_lower_bound",
    "Verif.Props.C182_symmetric",
    "Verif.Props.C182_exact",
    "Verif.Props.C182_flax_exact",
    "Verif.Props.C182_flax_ewmcov_rounding"
   ],
   "note": ""
  },
  {
   "property": "C183",
   "status": "partial",
   "theorems": [
    "Verif.Props.C183_negative_variance_partial"
   ],
   "note": "false of the code: float32 witnesses; C182 bounds how negative it can be"
  },
  {
   "property": "C184",
   "status": "proved",
   "theorems": [
    "Verif.Props.C184_ewmvar_rounding",
    "Verif.Props.C184_float32"
   ],
   "note": "coupling invariant of computed and exact mean and variance; relative error 16u(1+com) of the computed smoothing factor"
  },
  {
   "property": "C185",
   "status": "proved",
   "theorems": [
    "Verif.Props.C185_haiku_ewma_gradient",
    "Verif.Props.C185_flax_ewma_gradient",
    "Verif.Props.C185_missing_entry_gets_zero"
   ],
   "note": "Haiku and Flax, adjust True and False; adjust='linear' is C186. The loss weighs the outputs that are numbers; missing outputs count for nothing."
  },
  {
   "property": "C186",
   "status": "partial",
   "theorems": [
    "Verif.Props.C186_complete_data_numbers_partial",
    "Verif.Props.C186_gap_nan_partial"
   ],
   "note": "complete data: numbers (Haiku, Flax); a gap can give NaN, so the property is false of the code"
  },
  {
   "property": "C187",
   "status": "partial",
   "theorems": [
    "Verif.Props.C187_complete_data_gradient_partial",
    "Verif.Props.C187_missing_value_nan_partial"
   ],
   "note": "complete data: true derivatives (adjust True/False); any missing value: NaN for logcom, so the property is false of the code"
  },
  {
   "property": "C188",
   "status": "partial",
   "theorems": [
    "Verif.Props.C188_pct_change_gradient_partial",
    "Verif.Props.C188_missing_value_nan_partial"
   ],
   "note": "numbers: true derivatives; missing current value: NaN for the previous one, so the property is false of the code"
  },
  {
   "property": "C189",
   "status": "partial",
   "theorems": [
    "Verif.Props.C189_mask_std_gradient_numbers",
    "Verif.Props.C189_mask_std_gradient",
    "Verif.Props.C189_mask_normalize_constant_nan_partial",
    "Verif.Props.C189_mask_normalize_numbers_partial"
   ],
   "note": "MaskStd: numbers always, derivative where the variance is positive; MaskNormalize: numbers when the standard deviation is not 0, NaN when it is, so the property is false of the code"
  },
  {
   "property": "C190",
   "status": "proved",
   "theorems": [
    "Verif.Props.C190_numba_rounding",
    "Verif.Props.C190_numba_rounding_missing",
    "Verif.Props.C190_float32"
   ],
   "note": "rounded numba kernel follows the exact EWMA (coupling invariant) and hence the rounded Haiku module"
  },
  {
   "property": "C191",
   "status": "proved",
   "theorems": [
    "Verif.Props.C191_exact",
    "Verif.Props.C191_mask_mean_rounding"
   ],
   "note": "Haiku MaskMean on one line, any summation order"
  },
  {
   "property": "C192",
   "status": "proved",
   "theorems": [
    "Verif.Props.C192_exact",
    "Verif.Props.C192_mask_std_rounding",
    "Verif.Props.C192_float32"
   ],
   "note": "Haiku MaskStd on one line, any summation order and accurate square root"
  },
  {
   "property": "C193",
   "status": "partial",
   "theorems": [
    "Verif.Props.C193_constant_exact",
    "Verif.Props.C193_constant_explodes_partial"
   ],
   "note": "false of the code in float32: C193_constant_explodes_partial; proved in exact arithmetic"
  },
  {
   "property": "C194",
   "status": "proved",
   "theorems": [
    "Verif.Props.C194_exact",
    "Verif.Props.C194_pct_change_rounding",
    "Verif.Props.C194_flax_pct_change_rounding"
   ],
   "note": "Haiku, and Flax with pad"
  },
  {
   "property": "C195",
   "status": "partial",
   "theorems": [
    "Verif.Props.C195_exact",
    "Verif.Props.C195_short",
    "Verif.Props.C195_no_min_periods",
    "Verif.Props.C195_goes_silent_partial",
    "Verif.Props.C195_constant_stream_partial",
    "Verif.Props.C195_numba_exact",
    "Verif.Props.C195_numba_goes_silent_partial",
    "Verif.Props.C195_numba"
   ],
   "note": "False of the code beyond 2^31 observations (C195_goes_silent_partial, C195_constant_stream_partial); exact behaviour on all streams in C195_exact, agreement with the ideal counter in C195_short, C195_no_min_periods and C195_numba"
  },
  {
   "property": "C196",
   "status": "proved",
   "theorems": [
    "Verif.Props.C196_stopped_counter",
    "Verif.Props.C196_short",
    "Verif.Props.C196_float32"
   ],
   "note": "float32, every adjust mode, streams of any length; C196_stopped_counter is the general form, C196_short needs nothing of the smoothing"
  },
  {
   "property": "C197",
   "status": "proved",
   "theorems": [
    "Verif.Props.C197_transform",
    "Verif.Props.C197_init",
    "Verif.Props.C197_streaming_compatible",
    "Verif.Props.C197_alone",
    "Verif.Props.C197_from_init",
    "Verif.Props.C197_scope"
   ],
   "note": "any module, parameters, state and stream; the folding of the scope name into random keys is a parameter"
  },
  {
   "property": "C198",
   "status": "proved",
   "theorems": [
    "Verif.Props.C198_rolling_mean_gradient",
    "Verif.Props.C198_true_derivative",
    "Verif.Props.C198_missing_gradient"
   ],
   "note": ""
  },
  {
   "property": "C199",
   "status": "partial",
   "theorems": [
    "Verif.Props.C199_haiku_complete_data_partial",
    "Verif.Props.C199_flax_complete_data_partial",
    "Verif.Props.C199_outputs",
    "Verif.Props.C199_missing_partner_nan_partial",
    "Verif.Props.C199_late_series_nan_partial",
    "Verif.Props.C199_late_series_haiku_partial",
    "Verif.Props.C199_late_series_flax_partial"
   ],
   "note": "False of the code with missing values (two negative theorems); proved on complete data for Haiku and Flax."
  },
  {
   "property": "C200",
   "status": "proved",
   "theorems": [
    "Verif.Props.C200_flax_gradient",
    "Verif.Props.C200_flax_gradient_pow2",
    "Verif.Props.C200_flax_true_derivative"
   ],
   "note": "gradient of the Flax RollingMean = gradient of the Haiku one (fewer than 2^31 steps, or power-of-two horizon) = derivative of the outputs"
  },
  {
   "property": "C201",
   "status": "partial",
   "theorems": [
    "Verif.Props.C201_first_input_nan_partial",
    "Verif.Props.C201_before_missing_nan_partial",
    "Verif.Props.C201_missing_gradient",
    "Verif.Props.C201_loss_differentiable",
    "Verif.Props.C201_true_derivative_partial"
   ],
   "note": "false of the code: NaN gradient for the first observed input and for every value followed by a missing one (C201_first_input_nan_partial, C201_before_missing_nan_partial), although the loss is differentiable (C201_loss_differentiable); the derivative everywhere else (C201_true_derivative_partial)"
  },
  {
   "property": "C202",
   "status": "proved",
   "theorems": [
    "Verif.Props.C202_update_on_event",
    "Verif.Props.C202_conditional_computation",
    "Verif.Props.C202_held_weights",
    "Verif.Props.C202_rolling_mean_true_derivative",
    "Verif.Props.C202_pct_change_leak"
   ],
   "note": "generic over the module; hypothesis on UpdateOnEvent: the module's pullback of zero cotangents is zero (true of RollingMean, proved; false of PctChange at its first step, see C201)"
  },
  {
   "property": "C203",
   "status": "proved",
   "theorems": [
    "Verif.Props.C203_update_on_event_ewma",
    "Verif.Props.C203_conditional_ewma"
   ],
   "note": "the wrapped module is EWMA with adjust True or False (with adjust='linear' the module alone has NaN gradients at gaps, C186)"
  },
  {
   "property": "C204",
   "status": "partial",
   "theorems": [
    "Verif.Props.C204_units_partial",
    "Verif.Props.C204_nat",
    "Verif.Props.C204_datetime_partial",
    "Verif.Props.C204_far_date_wrong",
    "Verif.Props.C204_floor_units",
    "Verif.Props.C204_datetime64_encoder"
   ],
   "note": "false of the code for dates out of the int64 nanosecond range, silently replaced by others; proved: round-trip exactly in range (iff), NaT, flooring, arrays and their shape errors"
  },
  {
   "property": "C205",
   "status": "proved",
   "theorems": [
    "Verif.Props.C205_chain_rule",
    "Verif.Props.C205_mean_of_ewma",
    "Verif.Props.C205_ewma_of_mean"
   ],
   "note": "Chain rule for any two modules; RollingMean of EWMA and EWMA of RollingMean against the derivative over the reals"
  },
  {
   "property": "C206",
   "status": "proved",
   "theorems": [
    "Verif.Props.C206_reads",
    "Verif.Props.C206_buffer",
    "Verif.Props.C206_lag",
    "Verif.Props.C206_diff",
    "Verif.Props.C206_flax",
    "Verif.Props.C206_ffill",
    "Verif.Props.C206_ffill_true_derivative",
    "Verif.Props.C206_lag_true_derivative",
    "Verif.Props.C206_diff_true_derivative"
   ],
   "note": "Exact gradients of any buffer readout, Lag, Diff, Ffill (Haiku and Flax); true derivatives. For Diff: outputs that are not numbers have weight 0"
  },
  {
   "property": "C207",
   "status": "proved",
   "theorems": [
    "Verif.Props.C207_true_gradient_is_derivative",
    "Verif.Props.C207_pipeline",
    "Verif.Props.C207_ewma",
    "Verif.Props.C207_lag",
    "Verif.Props.C207_diff",
    "Verif.Props.C207_ffill",
    "Verif.Props.C207_rolling_mean",
    "Verif.Props.C207_ewma_of_ewma",
    "Verif.Props.C207_four_modules"
   ],
   "note": "TrueGradient closed under composition; EWMA (Haiku, Flax), RollingMean, Lag, Diff, Ffill; pipelines of two and four modules"
  },
  {
   "property": "C208",
   "status": "proved",
   "theorems": [
    "Verif.Props.C208_update_on_event",
    "Verif.Props.C208_conditional_computation_on",
    "Verif.Props.C208_conditional_computation",
    "Verif.Props.C208_conditional_observed",
    "Verif.Props.C208_four_modules"
   ],
   "note": "TrueGradient transfers through UpdateOnEvent and ConditionalComputation, pipelines included"
  },
  {
   "property": "C209",
   "status": "partial",
   "theorems": [
    "Verif.Props.C209_one_nan_weight_partial",
    "Verif.Props.C209_later_nan_weight_partial",
    "Verif.Props.C209_pct_of_ewma_nan_partial"
   ],
   "note": "False of the code as stated: proved that with adjust=False the gradient of logcom through PctChange of EWMA is NaN on every stream, and when one NaN cotangent spreads."
  },
  {
   "property": "C210",
   "status": "proved",
   "theorems": [
    "Verif.Props.C210_true_gradient_is_derivative",
    "Verif.Props.C210_pipeline",
    "Verif.Props.C210_flax_lag",
    "Verif.Props.C210_flax_diff",
    "Verif.Props.C210_flax_rolling_mean",
    "Verif.Props.C210_flax_four_modules",
    "Verif.Props.C210_flax_conditional"
   ],
   "note": "TrueGradientOn lengths below 2^31; pipelines; the derivative."
  },
  {
   "property": "C211",
   "status": "proved",
   "theorems": [
    "Verif.Props.C211_variance_with_gap_never_trained",
    "Verif.Props.C211_covariance_late_never_trained",
    "Verif.Props.C211_func_frozen",
    "Verif.Props.C211_online_frozen",
    "Verif.Props.C211_func_poisoned",
    "Verif.Props.C211_smoothed_returns_never_trained"
   ],
   "note": "The optimiser is any transformation that is Quiet at the parameter (momentum shown to be one). C211_func_frozen, C211_online_frozen, C211_func_poisoned, C211_smoothed_returns_never_trained."
  },
  {
   "property": "C212",
   "status": "proved",
   "theorems": [
    "Verif.Props.C212_flax_func_frozen",
    "Verif.Props.C212_flax_online_frozen"
   ],
   "note": "Any optimiser FlaxQuiet at the leaf (SGD shown to be one)."
  },
  {
   "property": "C213",
   "status": "proved",
   "theorems": [
    "Verif.Props.C213_online_step",
    "Verif.Props.C213_func_step",
    "Verif.Props.C213_flax_func_step",
    "Verif.Props.C213_flax_online_step"
   ],
   "note": "Exact arithmetic; the largest float is the constant big."
  }
 ]
}