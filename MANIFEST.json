{
 "claims": [
  {
   "property": "C01",
   "status": "proved",
   "theorems": [
    "Verif.Flags.C01_read_total",
    "Verif.Flags.C01_and_pointwise",
    "Verif.Flags.C01_or_pointwise",
    "Verif.Flags.C01_not_pointwise",
    "Verif.Flags.C01_assign_forms",
    "Verif.Flags.C01_negative_index_ub"
   ],
   "note": ""
  },
  {
   "property": "C02",
   "status": "proved",
   "theorems": [
    "Verif.Flags.C02_bool_iff_some_selected",
    "Verif.Flags.C02_bool_false_iff_nothing"
   ],
   "note": ""
  },
  {
   "property": "C03",
   "status": "proved",
   "theorems": [
    "Verif.Flags.C03_set_frame",
    "Verif.Flags.C03_unset_frame",
    "Verif.Flags.C03_add_frame",
    "Verif.Flags.C03_history"
   ],
   "note": ""
  },
  {
   "property": "C04",
   "status": "partial",
   "theorems": [
    "Verif.Flags.C04_print_parse",
    "Verif.Flags.C04_parse_accepts",
    "Verif.Flags.C04_parse_value",
    "Verif.Flags.C04_ofChars_accepts",
    "Verif.Flags.C04_ofChars_agrees_partial",
    "Verif.Flags.C04_spaces_disagree_counterexample",
    "Verif.Flags.C04_default_lost_counterexample"
   ],
   "note": "Stream printing and reading are proved to round-trip on the explicit bits. The default bit is not in the text and the C-string constructor treats spaces differently from the stream reader; both disagreements are proved as counterexamples."
  },
  {
   "property": "C05",
   "status": "proved",
   "theorems": [
    "Verif.MultiBound.C05_double_reads_last_set",
    "Verif.MultiBound.C05_single_reads_last_set",
    "Verif.MultiBound.C05_getters_value_or_throw",
    "Verif.MultiBound.C05_constructors"
   ],
   "note": ""
  },
  {
   "property": "C06",
   "status": "partial",
   "theorems": [
    "Verif.MultiBound.C06_round_trip_partial",
    "Verif.MultiBound.C06_round_trip_int",
    "Verif.MultiBound.C06_vector_round_trip_partial",
    "Verif.MultiBound.C06_vector_round_trip_int_partial",
    "Verif.MultiBound.C06_empty_vector_counterexample",
    "Verif.MultiBound.C06_empty_vector_sequence_counterexample",
    "Verif.MultiBound.C06_accepts_only_complete_text",
    "Verif.MultiBound.C06_cut_text_is_refused",
    "Verif.MultiBound.C06_cut_after_comma"
   ],
   "note": ""
  },
  {
   "property": "C07",
   "status": "proved",
   "theorems": [
    "Verif.Sot.C07_push",
    "Verif.Sot.C07_pop",
    "Verif.Sot.C07_pop_empty_ub",
    "Verif.Sot.C07_exist",
    "Verif.Sot.C07_remove",
    "Verif.Sot.C07_up",
    "Verif.Sot.C07_down",
    "Verif.Sot.C07_clear",
    "Verif.Sot.C07_reorder_perm"
   ],
   "note": ""
  },
  {
   "property": "C08",
   "status": "partial",
   "theorems": [
    "Verif.Sot.C08_deps_exact_partial",
    "Verif.Sot.C08_deps_sound",
    "Verif.Sot.C08_duplicate_counterexample",
    "Verif.Sot.C08_change_marks_ready"
   ],
   "note": ""
  },
  {
   "property": "C09",
   "status": "proved",
   "theorems": [
    "Verif.Sot.C09_not_disturbed",
    "Verif.Sot.C09_disturbance_bound"
   ],
   "note": ""
  },
  {
   "property": "C10",
   "status": "proved",
   "theorems": [
    "Verif.Sot.C10_residual_orthogonal",
    "Verif.Sot.C10_lexicographic_optimum",
    "Verif.Sot.C10_feasible_is_exact",
    "Verif.Sot.C10_full_row_rank_is_exact",
    "Verif.Sot.C10_minimum_norm"
   ],
   "note": ""
  },
  {
   "property": "C11",
   "status": "proved",
   "theorems": [
    "Verif.Sot.C11_inside_projector",
    "Verif.Sot.C11_wrong_size_throws",
    "Verif.Sot.C11_empty_stack",
    "Verif.Sot.C11_wrong_projector_ignored"
   ],
   "note": ""
  },
  {
   "property": "C12",
   "status": "partial",
   "theorems": [
    "Verif.Sot.C12_limited_change",
    "Verif.Sot.C12_rejected_is_skipped_partial",
    "Verif.Sot.C12_large_limit_accepts",
    "Verif.Sot.C12_first_rejected_counterexample"
   ],
   "note": "A rejected level is proved to be skipped except when it is the first one without projector; in that case the code stops the whole resolution, which is proved as a counterexample."
  },
  {
   "property": "C13",
   "status": "proved",
   "theorems": [
    "Verif.Sot.C13_masked_columns"
   ],
   "note": ""
  },
  {
   "property": "C14",
   "status": "partial",
   "theorems": [
    "Verif.Task.C14_size_and_components_partial",
    "Verif.Task.C14_concatenation_partial",
    "Verif.Task.C14_exact_once_allocated",
    "Verif.Task.C14_single_feature",
    "Verif.Task.C14_empty_throws",
    "Verif.Task.C14_growth_erases_counterexample"
   ],
   "note": "Exact concatenation is proved when the buffer has room (in particular on every later evaluation of a task that does not grow) and for one feature; the size and memory safety always hold. When the buffer has to grow after a first feature was copied, the code zeroes what it had copied: proved as a counterexample."
  },
  {
   "property": "C15",
   "status": "partial",
   "theorems": [
    "Verif.Task.C15_stack_partial",
    "Verif.Task.C15_stack_fresh_partial",
    "Verif.Task.C15_stack_history",
    "Verif.Task.C15_mismatch_throws",
    "Verif.Task.C15_mismatch_throws_fresh",
    "Verif.Task.C15_empty_throws",
    "Verif.Task.C15_stale_columns_counterexample",
    "Verif.Task.C15_no_columns_counterexample",
    "Verif.Task.C15_no_columns_reachable"
   ],
   "note": "Proved along every history that keeps one non-zero column count, with exceptions on mismatch. Two disagreements of the code are proved as counterexamples: a column count left by an earlier evaluation makes agreeing features be rejected, and a buffer without column leads to an out-of-range write."
  },
  {
   "property": "C16",
   "status": "proved",
   "theorems": [
    "Verif.Task.C16_proportional",
    "Verif.Task.C16_with_derivative",
    "Verif.Task.C16_size_mismatch"
   ],
   "note": ""
  },
  {
   "property": "C17",
   "status": "proved",
   "theorems": [
    "Verif.Task.C17_pd_history"
   ],
   "note": ""
  },
  {
   "property": "C18",
   "status": "proved",
   "theorems": [
    "Verif.Task.C18_velocity_iff_position",
    "Verif.Task.C18_short_reference"
   ],
   "note": ""
  },
  {
   "property": "C19",
   "status": "proved",
   "theorems": [
    "Verif.Gain.Adaptive.C19_value_at_zero",
    "Verif.Gain.Adaptive.C19_between",
    "Verif.Gain.Adaptive.C19_antitone",
    "Verif.Gain.Adaptive.C19_limit",
    "Verif.Gain.Adaptive.C19_slope",
    "Verif.Gain.Adaptive.C19_wrong_slope_unbounded",
    "Verif.Gain.Adaptive.C19_passing_point",
    "Verif.Gain.Adaptive.C19_passing_point_between",
    "Verif.Gain.Adaptive.C19_constant"
   ],
   "note": ""
  },
  {
   "property": "C20",
   "status": "proved",
   "theorems": [
    "Verif.Gain.Hyperbolic.C20_strictly_between",
    "Verif.Gain.Hyperbolic.C20_constant",
    "Verif.Gain.Hyperbolic.C20_antitone",
    "Verif.Gain.Hyperbolic.C20_mean_at_displacement",
    "Verif.Gain.Hyperbolic.C20_limit",
    "Verif.Gain.Hyperbolic.C20_value_at_zero_not_reached"
   ],
   "note": ""
  },
  {
   "property": "C21",
   "status": "proved",
   "theorems": [
    "Verif.MatrixSvd.C21_pseudo_inverse_of_truncated",
    "Verif.MatrixSvd.C21_penrose",
    "Verif.MatrixSvd.C21_independent_of_decomposition",
    "Verif.MatrixSvd.C21_same_threshold",
    "Verif.MatrixSvd.C21_damped",
    "Verif.MatrixSvd.C21_damped_minimises"
   ],
   "note": ""
  },
  {
   "property": "C22",
   "status": "proved",
   "theorems": [
    "Verif.Device.C22_positions_within_bounds",
    "Verif.Device.C22_positions_within_bounds_history"
   ],
   "note": ""
  },
  {
   "property": "C23",
   "status": "proved",
   "theorems": [
    "Verif.Device.C23_velocity_mode",
    "Verif.Device.C23_velocity_mode_free_flyer",
    "Verif.Device.C23_acceleration_mode_any",
    "Verif.Device.C23_acceleration_mode",
    "Verif.Device.C23_position_mode",
    "Verif.Device.C23_checked_step_is_clamped"
   ],
   "note": ""
  },
  {
   "property": "C24",
   "status": "proved",
   "theorems": [
    "Verif.Device.C24_nan_control_does_not_move",
    "Verif.Device.C24_nan_controls_history",
    "Verif.Device.C24_velocity_signal_is_the_control"
   ],
   "note": ""
  },
  {
   "property": "C25",
   "status": "proved",
   "theorems": [
    "Verif.Device.C25_position_bounds",
    "Verif.Device.C25_velocity_bounds",
    "Verif.Device.C25_torque_bounds",
    "Verif.Device.C25_sanity_check"
   ],
   "note": ""
  },
  {
   "property": "C26",
   "status": "partial",
   "theorems": [
    "Verif.Device.C26_step_reads_in_range",
    "Verif.Device.C26_history_partial",
    "Verif.Device.C26_setup",
    "Verif.Device.C26_new_device_counterexample",
    "Verif.Device.C26_resize_counterexample"
   ],
   "note": "Proved for every history that keeps the state size after the bounds were set (any mode, bounds, checks and controls of admissible size). For a new device and for a resize after setting the bounds the claim is false: proved as counterexamples."
  },
  {
   "property": "C27",
   "status": "proved",
   "theorems": [
    "Verif.Periodic.C27_calls_at_tick",
    "Verif.Periodic.C27_exception_skips_the_rest",
    "Verif.Periodic.C27_zero_factor_counterexample",
    "Verif.Periodic.C27_negative_tick_counterexample"
   ],
   "note": "Proved for all histories with positive factors and ticks from 0; a factor 0 (division by zero) and a negative tick (unsigned conversion) are proved as counterexamples to the unconditional form. A call that throws ends the pass: proved."
  },
  {
   "property": "C28",
   "status": "partial",
   "theorems": [
    "Verif.Event.C28_output_is_change",
    "Verif.Event.C28_triggers_on_rising_edges",
    "Verif.Event.C28_triggers_with_repetition",
    "Verif.Event.C28_never_triggers_while_false",
    "Verif.Event.C28_repeat_change_counterexample",
    "Verif.Event.C28_first_evaluation_counterexample"
   ],
   "note": "Proved for every history with a fixed repetition. Changing the repetition while the condition is true can trigger at once, and an event whose condition is true at the first evaluation does not trigger: both proved as counterexamples."
  },
  {
   "property": "C29",
   "status": "partial",
   "theorems": [
    "Verif.Mailbox.C29_operations_are_indivisible",
    "Verif.Mailbox.C29_read_returns_latest",
    "Verif.Mailbox.C29_reads_do_not_go_back",
    "Verif.Mailbox.C29_reader_never_waits",
    "Verif.Mailbox.C29_uncontended_read",
    "Verif.Mailbox.C29_alternating_buffers_counterexample"
   ],
   "note": "Proved for every interleaving at the level of single memory accesses and one result buffer per reading thread. The signals built on it alternate two result buffers; with this, a contended read may return an older message than the read before: proved as a counterexample."
  },
  {
   "property": "C30",
   "status": "partial",
   "theorems": [
    "Verif.Fir.C30_output_any",
    "Verif.Fir.C30_vector_filter_is_convolution",
    "Verif.Fir.C30_scalar_filter_partial",
    "Verif.Fir.C30_scalar_counterexample",
    "Verif.Fir.C30_set_element_counterexample"
   ],
   "note": "Proved for vector signals. For scalar signals the reset of the result does nothing, so the output accumulates on the previous content of the buffer: proved as counterexample, with the exact output proved in the partial theorem. setElement out of range is undefined behaviour."
  },
  {
   "property": "C31",
   "status": "proved",
   "theorems": [
    "Verif.Fir.C31_buffer_holds_recent_samples",
    "Verif.Fir.C31_reads_in_range",
    "Verif.Fir.C31_zero_capacity_counterexample"
   ],
   "note": "Proved for capacities > 0 as the claim states; capacity 0 is proved to be an out-of-range write."
  },
  {
   "property": "C32",
   "status": "proved",
   "theorems": [
    "Verif.Causal.C32_difference_equation",
    "Verif.Causal.C32_difference_equation_first_order",
    "Verif.Causal.C32_constant_input",
    "Verif.Causal.C32_second_derivative_counterexample",
    "Verif.Causal.C32_moving_average_counterexample"
   ],
   "note": "Proved for denominators of at least three coefficients (equation, both derivatives, steady state) and the equation and first derivative for two. For two coefficients the second derivative is wrong, and for one coefficient the code reads out of range: proved as counterexamples."
  },
  {
   "property": "C33",
   "status": "proved",
   "theorems": [
    "Verif.Memory.C33_average_is_weighted_sum",
    "Verif.Memory.C33_average_stays_in_interval",
    "Verif.Memory.C33_starts_from_zero_counterexample",
    "Verif.Memory.C33_bad_weight_counterexample"
   ],
   "note": "Closed form and interval invariant proved for all histories. The average starting from zero and weights outside [0,1] being accepted are shown by counterexamples to stronger readings."
  },
  {
   "property": "C34",
   "status": "proved",
   "theorems": [
    "Verif.Euler.C34_euler_equation",
    "Verif.Euler.C34_initialize",
    "Verif.Euler.C34_uninitialised_counterexample",
    "Verif.Memory.C34_derivator"
   ],
   "note": "Derivator: all histories of one size. Integrator: from any state reached by commands, the discretised equation holds at every step with enough predecessors; initialisation is characterised. Use before initialisation is proved to be undefined behaviour."
  },
  {
   "property": "C35",
   "status": "partial",
   "theorems": [
    "Verif.Gripper.C35_factor_in_unit",
    "Verif.Gripper.C35_factor_update",
    "Verif.Gripper.C35_no_torque",
    "Verif.Gripper.C35_reference_partial",
    "Verif.Gripper.C35_several_joints_counterexample",
    "Verif.Gripper.C35_selector"
   ],
   "note": "Factor range, decrease and recovery proved for every history and number of joints, selection proved; the position reference is proved for grippers with one joint. With any other number of joints the code multiplies two column vectors as matrices, which is undefined (C35_several_joints_counterexample)."
  },
  {
   "property": "C36",
   "status": "partial",
   "theorems": [
    "Verif.Clamp.C36_outputs",
    "Verif.Clamp.C36_complementary",
    "Verif.Clamp.C36_yaw_in_range",
    "Verif.Clamp.C36_time_zero_counterexample",
    "Verif.Clamp.C36_mode2_counterexample"
   ],
   "note": "Proved for every history and every evaluation at a positive time later than the previous ones, with rigid poses. At times up to 0 nothing is computed and the outputs are not weights (C36_time_zero_counterexample); mode 2, unreachable by commands, computes a wrong complement (C36_mode2_counterexample)."
  },
  {
   "property": "C37",
   "status": "partial",
   "theorems": [
    "Verif.Limits.C37_only_tilt_reduced",
    "Verif.Limits.C37_constraint_partial",
    "Verif.Limits.C37_unchanged_when_ok",
    "Verif.Limits.C37_small_pan_counterexample",
    "Verif.Limits.C37_short_vector_ub"
   ],
   "note": "Exact constraint proved for |pan| >= 0.001 and pan = 0, a bound for all pans, and identity on admissible inputs. For small non-zero pan the flat limit is used and the linear constraint is violated (C37_small_pan_counterexample). Vectors with fewer than 16 joints are read out of range."
  },
  {
   "property": "C38",
   "status": "proved",
   "theorems": [
    "Verif.Limits.C38_limited_control",
    "Verif.Limits.C38_stays_inside",
    "Verif.Limits.C38_width"
   ],
   "note": "For every state, bounds of the size of the state and control not longer than the state."
  },
  {
   "property": "C39",
   "status": "partial",
   "theorems": [
    "Verif.Freezer.C39_output",
    "Verif.Freezer.C39_follows_while_in_process",
    "Verif.Freezer.C39_frozen_after_stop_partial",
    "Verif.Freezer.C39_no_tracking_after_stop_counterexample",
    "Verif.Freezer.C39_not_frozen_at_first_counterexample"
   ],
   "note": "Complete description of the output proved for every history; following while in process and freezing after the first 200 ticks proved. The stop is never detected: the one-second tracking after a stop does not exist (C39_no_tracking_after_stop_counterexample) and the first 200 ticks freeze nothing."
  },
  {
   "property": "C40",
   "status": "proved",
   "theorems": [
    "Verif.Reach.C40_reach",
    "Verif.Reach.C40_endpoints",
    "Verif.Reach.C40_zero_duration_undefined",
    "Verif.Reach.C40_other_mode_stays"
   ],
   "note": "Modes 0, 1, 2, positive parameter (modes 1, 2) and positive duration. A zero duration gives no finite value and another mode never leaves the start: both proved."
  },
  {
   "property": "C41",
   "status": "partial",
   "theorems": [
    "Verif.Reader.C41_replay_partial",
    "Verif.Reader.C41_load_then_read_partial",
    "Verif.Reader.C41_rewind_partial",
    "Verif.Reader.C41_matrix_row_major",
    "Verif.Reader.C41_two_buffers_counterexample",
    "Verif.Reader.C41_long_line_counterexample",
    "Verif.Reader.C41_negative_resize_ub"
   ],
   "note": "Lines of at most 1023 characters; the last row is kept only with one result buffer: through the two alternating buffers of a signal the last two rows are returned in turn (counterexample)."
  },
  {
   "property": "C42",
   "status": "partial",
   "theorems": [
    "Verif.JointTraj.C42_plays_in_order",
    "Verif.JointTraj.C42_single_trajectory",
    "Verif.JointTraj.C42_no_init_counterexample",
    "Verif.JointTraj.C42_short_point_counterexample",
    "Verif.JointTraj.C42_stamps_counterexample",
    "Verif.JointTraj.C42_waist_position",
    "Verif.JointTraj.C42_waist_counterexample"
   ],
   "note": "Holds once initTraj was given, for non-empty trajectories whose points have at least five values. Without initTraj the first evaluation reads the front of an empty queue; stamps (0,0) are never queued and a stamp received again later is queued again; the waist translation is turned by the waist angle."
  },
  {
   "property": "C43",
   "status": "partial",
   "theorems": [
    "Verif.RobotUtils.C43_roundtrip",
    "Verif.RobotUtils.C43_components",
    "Verif.RobotUtils.C43_empty_mapping_rejected",
    "Verif.RobotUtils.C43_out_of_range_not_rejected",
    "Verif.RobotUtils.C43_before_mapping_counterexample",
    "Verif.RobotUtils.C43_repeated_index_counterexample",
    "Verif.RobotUtils.C43_vector_mapping",
    "Verif.RobotUtils.C43_negative_vector_entry_counterexample"
   ],
   "note": "Round trip proved for every bijective mapping. An out-of-range mapping is not rejected by the code (undefined behaviour), and use before any mapping was set reads an uninitialised member; both shown by counterexample."
  },
  {
   "property": "C44",
   "status": "proved",
   "theorems": [
    "Verif.RobotUtils.C44_inverse",
    "Verif.RobotUtils.C44_inverse_distinct",
    "Verif.RobotUtils.C44_unknown_reported",
    "Verif.RobotUtils.C44_any_history",
    "Verif.RobotUtils.C44_stale_id_counterexample"
   ],
   "note": "For distinct names and identifiers; after a name changes identifier the old identifier still answers (counterexample)."
  },
  {
   "property": "C45",
   "status": "proved",
   "theorems": [
    "Verif.Pool.C45_task_found",
    "Verif.Pool.C45_feature_found",
    "Verif.Pool.C45_task_for_ever",
    "Verif.Pool.C45_feature_for_ever",
    "Verif.Pool.C45_conflict",
    "Verif.Pool.C45_deleted_counterexample"
   ],
   "note": "As long as neither the entity nor the pool is destroyed; a deleted entity stays in the pool and its reference dangles (counterexample)."
  },
  {
   "property": "C46",
   "status": "partial",
   "theorems": [
    "Verif.Variadic.C46_set_number",
    "Verif.Variadic.C46_add",
    "Verif.Variadic.C46_remove",
    "Verif.Variadic.C46_any_history",
    "Verif.Variadic.C46_default_names",
    "Verif.Variadic.C46_name_clash_counterexample",
    "Verif.Variadic.C46_remove_empty_counterexample"
   ],
   "note": "Proved for histories in which the names of new inputs are free (always so when the entity names its inputs). With a user-given name sinK the property is false: counterexample."
  },
  {
   "property": "C47",
   "status": "proved",
   "theorems": [
    "Verif.Variadic.C47_selected",
    "Verif.Variadic.C47_out_of_range",
    "Verif.Variadic.C47_boolean"
   ],
   "note": ""
  },
  {
   "property": "C48",
   "status": "proved",
   "theorems": [
    "Verif.Operators.C48_selec",
    "Verif.Operators.C48_component",
    "Verif.Operators.C48_stack",
    "Verif.Operators.C48_stack_undefined",
    "Verif.Operators.C48_mix",
    "Verif.Operators.C48_mix_unknown_input",
    "Verif.Operators.C48_mix_no_input",
    "Verif.Geometry.C55_twist_inv",
    "Verif.Geometry.C72_se3_roundtrip"
   ],
   "note": "The conversions of rotations are property C81."
  },
  {
   "property": "C49",
   "status": "partial",
   "theorems": [
    "Verif.Operators.C49_adder",
    "Verif.Operators.C49_coefficients",
    "Verif.Operators.C49_addSignal_counterexample",
    "Verif.Operators.C49_adder_stale_counterexample",
    "Verif.Operators.C49_multiplier",
    "Verif.Operators.C49_multiplier_vector",
    "Verif.Operators.C49_multiplier_vector_sizes",
    "Verif.Operators.C49_bool",
    "Verif.Operators.C49_bool_empty_counterexample"
   ],
   "note": "Proved for at least one input and script commands. False with no input for the adder and the boolean operators (the output keeps its previous value) and after addSignal in C++ (no coefficient for the new input)."
  },
  {
   "property": "C50",
   "status": "proved",
   "theorems": [
    "Verif.Features.C50_dimension",
    "Verif.Features.C50_dimension_history",
    "Verif.Features.C50_error",
    "Verif.Features.C50_error_reference",
    "Verif.Features.C50_error_cases",
    "Verif.Features.C50_jacobian",
    "Verif.Features.C50_consistent",
    "Verif.Features.C50_dimension_counterexample",
    "Verif.Features.C50_resized_error_counterexample",
    "Verif.Features.C50_short_reference_counterexample",
    "Verif.Features.C50_short_jacobian_counterexample"
   ],
   "note": "Proved for errors of constant size and references that hold every selected component. Three counterexamples outside: the dimension is kept from the first error size; the check of the reference size is too weak (out-of-range read); a short Jacobian is read out of range."
  },
  {
   "property": "C51",
   "status": "proved",
   "theorems": [
    "Verif.Features.C51_dimension",
    "Verif.Features.C51_defined",
    "Verif.Features.C51_error",
    "Verif.Features.C51_error_dot",
    "Verif.Features.C51_history",
    "Verif.Features.C51_stale_jacobian_counterexample"
   ],
   "note": "Proved for all histories with a constant size; the dimension for all histories. Counterexample: a refused request after a change of size leaves the Jacobian of the old selection."
  },
  {
   "property": "C52",
   "status": "partial",
   "theorems": [
    "Verif.Features.C52_error",
    "Verif.Features.C52_sizes",
    "Verif.Features.C52_normalised",
    "Verif.Features.C52_monotone",
    "Verif.Features.C52_jacobian_shape",
    "Verif.Features.C52_derivative",
    "Verif.Features.C52_jacobian_partial",
    "Verif.Features.C52_jacobian_counterexample"
   ],
   "note": "Normalisation proved. The Jacobian is half the derivative of the error (and one for tiny ranges): never the derivative."
  },
  {
   "property": "C53",
   "status": "proved",
   "theorems": [
    "Verif.Features.C53_error",
    "Verif.Features.C53_nonneg",
    "Verif.Features.C53_jacobian",
    "Verif.Features.C53_derivative",
    "Verif.Features.C53_short_error"
   ],
   "note": "Derivative along any motion."
  },
  {
   "property": "C54",
   "status": "proved",
   "theorems": [
    "Verif.Spatial.C54_rejected",
    "Verif.Spatial.C54_accepted",
    "Verif.Spatial.C54_interaction",
    "Verif.Spatial.C54_jacobian",
    "Verif.Spatial.C54_selection",
    "Verif.Spatial.C54_error"
   ],
   "note": "For the convention of a camera Jacobian expressed in the camera."
  },
  {
   "property": "C55",
   "status": "proved",
   "theorems": [
    "Verif.Geometry.C55_twist_action",
    "Verif.Geometry.C55_twist_mul",
    "Verif.Geometry.C55_twist_inv",
    "Verif.Geometry.C55_pose_action"
   ],
   "note": ""
  },
  {
   "property": "C56",
   "status": "proved",
   "theorems": [
    "Verif.Geometry.C56_position",
    "Verif.Geometry.C56_world_jacobian",
    "Verif.Geometry.C56_end_effector_jacobian"
   ],
   "note": ""
  },
  {
   "property": "C57",
   "status": "partial",
   "theorems": [
    "Verif.Geometry.C57_rotation",
    "Verif.Geometry.C57_missing_angle_ub",
    "Verif.Geometry.C57_shipped_identity"
   ],
   "note": "Product of the elementary rotations in order proved for every list of axes and angles; with fewer angles than axes the read is out of range; no command sets the axes, so that the entity as shipped always returns the identity (C57_shipped_identity)."
  },
  {
   "property": "C58",
   "status": "proved",
   "theorems": [
    "Verif.Kalman.C58_joseph_form",
    "Verif.Kalman.C58_gain",
    "Verif.Kalman.C58_variance_psd",
    "Verif.Kalman.C58_variance_symmetric",
    "Verif.Kalman.C58_initial",
    "Verif.Kalman.C58_state_updates_variance"
   ],
   "note": "For R positive definite and Q positive semi-definite; the matrices given by setInitialVariance positive semi-definite. Caching of the outputs by time is not modelled."
  },
  {
   "property": "C59",
   "status": "partial",
   "theorems": [
    "Verif.Madgwick.C59_step",
    "Verif.Madgwick.C59_unit",
    "Verif.Madgwick.C59_recovers",
    "Verif.Madgwick.C59_period_one_counterexample",
    "Verif.Madgwick.C59_null_quaternion_counterexample",
    "Verif.Madgwick.C59_not_normalised_counterexample",
    "Verif.Madgwick.C59_refused",
    "Verif.Madgwick.C59_before_init"
   ],
   "note": "Proved for every history with periods below one second and unit quaternions given to set_imu_quat (beta is then at most one), and per step when beta*dt is below the norm of the quaternion. Counterexamples: beta*dt = 1, set_imu_quat with the null or a non-unit quaternion, which the code accepts."
  },
  {
   "property": "C60",
   "status": "proved",
   "theorems": [
    "Verif.Admittance.C60_saturated",
    "Verif.Admittance.C60_bounded",
    "Verif.Admittance.C60_negative_saturation_counterexample",
    "Verif.Admittance.C60_before_init",
    "Verif.Admittance.C60_init"
   ],
   "note": "A negative saturation component gives its opposite instead (counterexample)."
  },
  {
   "property": "C61",
   "status": "proved",
   "theorems": [
    "Verif.StopWatch.C61_total_and_last",
    "Verif.StopWatch.C61_average",
    "Verif.StopWatch.C61_min_last_max",
    "Verif.StopWatch.C61_unknown",
    "Verif.StopWatch.C61_laps",
    "Verif.StopWatch.C61_other_names"
   ],
   "note": "For histories of starts, stops and resets of the name; pauses are treated in C91."
  },
  {
   "property": "C62",
   "status": "partial",
   "theorems": [
    "Verif.Sequencer.C62_never_runs_counterexample",
    "Verif.Sequencer.C62_event_not_run_counterexample",
    "Verif.Sequencer.C62_due_partial",
    "Verif.Sequencer.C62_minus_one_counterexample",
    "Verif.Sequencer.C62_no_stack_counterexample"
   ],
   "note": "False of the code: nothing ever raises the play flag, so no event is ever run (counterexample for every history). The order of execution is proved for a sequencer whose flag is up."
  },
  {
   "property": "C63",
   "status": "proved",
   "theorems": [
    "Verif.Sot.C63_no_undefined_behaviour",
    "Verif.Sot.C63_grown_task_counterexample"
   ],
   "note": "Proved under the stated preconditions; a task that grows after its memory was allocated is proved to be undefined behaviour (counterexample to the unconditional form)."
  },
  {
   "property": "C64",
   "status": "partial",
   "theorems": [
    "Verif.Device.C64_acceleration_mode_partial",
    "Verif.Device.C64_velocity_mode_counterexample",
    "Verif.Device.C64_acceleration_mode_position_counterexample",
    "Verif.Device.C64_position_mode_counterexample"
   ],
   "note": "Only the stored velocity in acceleration mode is limited (proved). The velocity control, the position moved in acceleration mode and the position control are not limited: proved as counterexamples."
  },
  {
   "property": "C65",
   "status": "partial",
   "theorems": [
    "Verif.Device.C65_set_root_counterexample"
   ],
   "note": "False of the code: the command always writes out of range and never stores anything (proved for every device and pose)."
  },
  {
   "property": "C66",
   "status": "partial",
   "theorems": [
    "Verif.Causal.C66_switch_at_rest_partial",
    "Verif.Causal.C66_switch_counterexample",
    "Verif.Causal.C66_switch_before_first_sample"
   ],
   "note": "Proved at rest. When the input varies the code restarts from the oldest sample in its buffer: proved as a counterexample."
  },
  {
   "property": "C67",
   "status": "partial",
   "theorems": [
    "Verif.Euler.C67_rest_first_order_partial",
    "Verif.Euler.C67_second_order_counterexample"
   ],
   "note": "Proved for first-order equations. For order two and more the memories of the derivatives are also set to the input, so the integrator does not start at rest: proved as a counterexample."
  },
  {
   "property": "C68",
   "status": "proved",
   "theorems": [
    "Verif.Memory.C68_value_is_sum"
   ],
   "note": ""
  },
  {
   "property": "C69",
   "status": "proved",
   "theorems": [
    "Verif.Memory.C69_latch_holds_last_command"
   ],
   "note": ""
  },
  {
   "property": "C70",
   "status": "partial",
   "theorems": [
    "Verif.Geometry.C70_unit_quaternion_rotation",
    "Verif.Geometry.C70_norm_mul",
    "Verif.Geometry.C70_mul_composes",
    "Verif.Geometry.C70_conj_inverse",
    "Verif.Geometry.C70_conj_not_inverse_counterexample"
   ],
   "note": ""
  },
  {
   "property": "C71",
   "status": "proved",
   "theorems": [
    "Verif.Geometry.C71_rpy",
    "Verif.Geometry.C71_pose_rpy",
    "Verif.Geometry.C71_pose_utheta"
   ],
   "note": ""
  },
  {
   "property": "C72",
   "status": "partial",
   "theorems": [
    "Verif.Geometry.C72_se3_roundtrip",
    "Verif.Geometry.C72_skew_to_vector_opposite",
    "Verif.Geometry.C72_skew_to_vector_counterexample"
   ],
   "note": "The two round trips are proved; the conversion of an antisymmetric matrix gives the opposite vector (C72_skew_to_vector_opposite, C72_skew_to_vector_counterexample)."
  },
  {
   "property": "C73",
   "status": "proved",
   "theorems": [
    "Verif.RobotUtils.C73_velocity_roundtrip",
    "Verif.RobotUtils.C73_velocity_of_base"
   ],
   "note": ""
  },
  {
   "property": "C74",
   "status": "partial",
   "theorems": [
    "Verif.RobotUtils.C74_same_pose",
    "Verif.RobotUtils.C74_angles_roundtrip",
    "Verif.RobotUtils.C74_config_roundtrip",
    "Verif.RobotUtils.C74_near_singularity_counterexample",
    "Verif.RobotUtils.C74_empty_mapping_counterexample"
   ],
   "note": "Outside a window of 0.001 rad around the singular pitch; inside it the roll is dropped although the pose is not singular (counterexample). The configuration conversion reports success even without a mapping (counterexample)."
  },
  {
   "property": "C75",
   "status": "proved",
   "theorems": [
    "Verif.RobotUtils.C75_mimic_joints",
    "Verif.RobotUtils.C75_nameless_counterexample"
   ],
   "note": "XML parsing by Boost is not modelled: the input is the property tree."
  },
  {
   "property": "C76",
   "status": "proved",
   "theorems": [
    "Verif.RobotUtils.C76_create_once",
    "Verif.RobotUtils.C76_registry"
   ],
   "note": ""
  },
  {
   "property": "C77",
   "status": "proved",
   "theorems": [
    "Verif.RobotUtils.C77_joint_limits",
    "Verif.RobotUtils.C77_force_ids"
   ],
   "note": ""
  },
  {
   "property": "C78",
   "status": "partial",
   "theorems": [
    "Verif.Pool.C78_plain_file",
    "Verif.Pool.C78_file_in_directory_partial",
    "Verif.Pool.C78_dot_in_directory_throws",
    "Verif.Pool.C78_counterexample"
   ],
   "note": "False of the code for files in a directory: the separator stays in the name, and a path whose only dot is in a directory raises an exception."
  },
  {
   "property": "C79",
   "status": "proved",
   "theorems": [
    "Verif.Operators.C79_compare",
    "Verif.Operators.C79_weighted"
   ],
   "note": "Undefined for different sizes and before the gains are set."
  },
  {
   "property": "C80",
   "status": "proved",
   "theorems": [
    "Verif.Operators.C80_convolution",
    "Verif.Operators.C80_size_change"
   ],
   "note": "For coefficient matrices with a constant number of columns; an input of another size cuts the sum."
  },
  {
   "property": "C81",
   "status": "proved",
   "theorems": [
    "Verif.Geometry.C81_matrix_quaternion",
    "Verif.Geometry.C81_quaternion_matrix",
    "Verif.Geometry.C81_matrix_angle_axis",
    "Verif.Geometry.C81_pose_utheta",
    "Verif.Geometry.C81_utheta_pose",
    "Verif.Geometry.C81_half_turn_counterexample",
    "Verif.Geometry.C81_rpy_utheta",
    "Verif.Geometry.C81_pose_quaternion",
    "Verif.Geometry.C81_matrix_rpy",
    "Verif.Geometry.C81_pose_rpy",
    "Verif.Geometry.C81_quaternion_rpy",
    "Verif.Geometry.C81_rpy_matrix",
    "Verif.Geometry.C81_negative_yaw_counterexample"
   ],
   "note": "Eigen's conversion algorithms are transcribed into the model. The other direction (angles to rotation and back) holds for rotation vectors shorter than half a turn and for yaws in (0, pi); counterexamples beside."
  },
  {
   "property": "C82",
   "status": "partial",
   "theorems": [
    "Verif.Operators.C82_matrix_selector",
    "Verif.Operators.C82_column_selector",
    "Verif.Operators.C82_unset",
    "Verif.Operators.C82_transpose",
    "Verif.Operators.C82_diagonal",
    "Verif.Operators.C82_diagonal_resize_counterexample"
   ],
   "note": "The diagonal matrix has the size of the vector: the size asked for with the command resize has no effect."
  },
  {
   "property": "C83",
   "status": "proved",
   "theorems": [
    "Verif.Features.C83_no_reference",
    "Verif.Features.C83_reference",
    "Verif.Features.C83_too_short",
    "Verif.Features.C83_too_long",
    "Verif.Features.C83_garbage_counterexample"
   ],
   "note": "Proved for a derivative of the size of the error; counterexamples for longer (write past the end) and shorter ones (uninitialised components)."
  },
  {
   "property": "C84",
   "status": "proved",
   "theorems": [
    "Verif.Spatial.C84_error",
    "Verif.Spatial.C84_translation",
    "Verif.Spatial.C84_jacobian"
   ],
   "note": "For the convention of a Jacobian expressed in the frame."
  },
  {
   "property": "C85",
   "status": "proved",
   "theorems": [
    "Verif.Spatial.C85_error",
    "Verif.Spatial.C85_zero",
    "Verif.Spatial.C85_orthogonal",
    "Verif.Spatial.C85_distance_counterexample"
   ],
   "note": "The error is the signed distance divided by the norm of the cross product of the directions; counterexample to being a distance in general."
  },
  {
   "property": "C86",
   "status": "partial",
   "theorems": [
    "Verif.Spatial.C86_derivative",
    "Verif.Spatial.C86_jacobian_partial",
    "Verif.Spatial.C86_jacobian_counterexample"
   ],
   "note": "The coefficient of the third coordinate of the direction is zero in the code: the Jacobian is the derivative only when that coordinate does not move; counterexample otherwise."
  },
  {
   "property": "C87",
   "status": "partial",
   "theorems": [
    "Verif.Spatial.C87_projection_partial",
    "Verif.Spatial.C87_assertions_counterexample",
    "Verif.Spatial.C87_three_coordinates"
   ],
   "note": "Holds with assertions compiled out and four coordinates given; with assertions no input is accepted."
  },
  {
   "property": "C88",
   "status": "proved",
   "theorems": [
    "Verif.Kalman.C88_variance_decreases",
    "Verif.Kalman.C88_gain_optimal",
    "Verif.Kalman.C88_gain_unique",
    "Verif.Kalman.C88_estimate",
    "Verif.Kalman.C88_least_squares"
   ],
   "note": "Least squares when the predicted covariance is definite."
  },
  {
   "property": "C89",
   "status": "proved",
   "theorems": [
    "Verif.Madgwick.C89_gyroscope",
    "Verif.Madgwick.C89_gradient",
    "Verif.Madgwick.C89_misalignment",
    "Verif.Madgwick.C89_step",
    "Verif.Madgwick.C89_rest"
   ],
   "note": ""
  },
  {
   "property": "C90",
   "status": "proved",
   "theorems": [
    "Verif.Admittance.C90_step",
    "Verif.Admittance.C90_decay",
    "Verif.Admittance.C90_steady",
    "Verif.Admittance.C90_power",
    "Verif.Admittance.C90_angular_norm",
    "Verif.Admittance.C90_output_not_saturated_counterexample"
   ],
   "note": "The damping gain is not multiplied by the period and the velocity given in the body frame can exceed the saturation (counterexample), contrary to the documentation of the signal."
  },
  {
   "property": "C91",
   "status": "partial",
   "theorems": [
    "Verif.StopWatch.C91_max",
    "Verif.StopWatch.C91_min",
    "Verif.StopWatch.C91_zero_lapse_counterexample",
    "Verif.StopWatch.C91_clock_zero_counterexample",
    "Verif.StopWatch.C91_pause_counterexample",
    "Verif.StopWatch.C91_turned_off",
    "Verif.StopWatch.C91_never_started",
    "Verif.StopWatch.C91_reset_all"
   ],
   "note": "The minimum for positive lapses, the maximum when a lapse is not negative. Counterexamples: a zero lapse is forgotten by the minimum, a lap started when the clock reads zero is not recorded, a pause in real time subtracts readings of two clocks."
  },
  {
   "property": "C92",
   "status": "partial",
   "theorems": [
    "Verif.Sequencer.C92_add",
    "Verif.Sequencer.C92_remove",
    "Verif.Sequencer.C92_remove_absent",
    "Verif.Sequencer.C92_remove_no_time",
    "Verif.Sequencer.C92_remove_twice_counterexample",
    "Verif.Sequencer.C92_null_counterexample",
    "Verif.Sequencer.C92_clear",
    "Verif.Sequencer.C92_clear_shared_counterexample"
   ],
   "note": "Exact removal when the event is registered once for that time; an event registered twice is removed twice, a null event makes rmTask dereference it, and clearing shared events deletes them twice (counterexamples)."
  },
  {
   "property": "C93",
   "status": "proved",
   "theorems": [
    "Verif.Point6d.C93_error_motion",
    "Verif.Point6d.C93_error_zero",
    "Verif.Point6d.C93_frame_names",
    "Verif.Point6d.C93_frames",
    "Verif.Point6d.C93_keep",
    "Verif.Point6d.C93_no_reference",
    "Verif.Point6d.C93_rotation_bounded",
    "Verif.Point6d.C93_selected",
    "Verif.Point6d.C93_world_invariant"
   ],
   "note": "The rotation vectors are those of the model of Eigen's angle and axis (see DESIGN)."
  },
  {
   "property": "C94",
   "status": "partial",
   "theorems": [
    "Verif.Point6d.C94_decay",
    "Verif.Point6d.C94_norm",
    "Verif.Point6d.C94_rotation_counterexample",
    "Verif.Point6d.C94_rotation_partial",
    "Verif.Point6d.C94_translation"
   ],
   "note": "The rotation rows are the exact derivative only for velocities along the error (counterexample otherwise), but the norms and the closed loop are exact."
  },
  {
   "property": "C95",
   "status": "partial",
   "theorems": [
    "Verif.Point6d.C95_errordot_partial",
    "Verif.Point6d.C95_no_reference",
    "Verif.Point6d.C95_norm",
    "Verif.Point6d.C95_tracking",
    "Verif.Point6d.C95_translation"
   ],
   "note": "The error derivative is the exact velocity when the frame rests, outside of the band of squared norm below 1e-8 where the code uses the identity; the squared norm and the tracking law are exact always."
  },
  {
   "property": "C96",
   "status": "partial",
   "theorems": [
    "Verif.Point6d.C96_decay",
    "Verif.Point6d.C96_error_zero",
    "Verif.Point6d.C96_initSdes",
    "Verif.Point6d.C96_method_counterexample",
    "Verif.Point6d.C96_norm",
    "Verif.Point6d.C96_selected",
    "Verif.Point6d.C96_translation_counterexample",
    "Verif.Point6d.C96_translation_partial",
    "Verif.Point6d.C96_world_invariant"
   ],
   "note": "The translation rows are the exact derivative only when the angular velocity is along the translation error (counterexample otherwise); the norms and the closed loop are exact. The method computeErrorDot, which no signal calls, has a wrong sign (counterexample)."
  },
  {
   "property": "C97",
   "status": "partial",
   "theorems": [
    "Verif.Point6d.C97_decay",
    "Verif.Point6d.C97_error_zero",
    "Verif.Point6d.C97_errordot_counterexample",
    "Verif.Point6d.C97_errordot_partial",
    "Verif.Point6d.C97_jacobian",
    "Verif.Point6d.C97_keep",
    "Verif.Point6d.C97_no_ja",
    "Verif.Point6d.C97_pose",
    "Verif.Point6d.C97_se3_desired",
    "Verif.Point6d.C97_se3_velocity",
    "Verif.Point6d.C97_selected"
   ],
   "note": "Everything holds but the translation part of the error derivative, which uses the current translation for the desired one (counterexample); it is exact when the angular velocity of the desired pose is along the translation error. The representation SE(3) is C141."
  },
  {
   "property": "C98",
   "status": "partial",
   "theorems": [
    "Verif.TrajText.C98_read",
    "Verif.TrajText.C98_values",
    "Verif.TrajText.C98_stamp_counterexample",
    "Verif.TrajText.C98_dropped_counterexample"
   ],
   "note": "The written time stamp is never read (the stream keeps its end-of-file flag), and values without decimal point and exponents are dropped: counterexamples."
  },
  {
   "property": "C99",
   "status": "proved",
   "theorems": [
    "Verif.TrajText.C99_names_end",
    "Verif.TrajText.C99_ends",
    "Verif.TrajText.C99_hangs",
    "Verif.TrajText.C99_hangs_empty",
    "Verif.TrajText.C99_appends",
    "Verif.TrajText.C99_twice",
    "Verif.TrajText.C99_copy",
    "Verif.TrajText.C99_no_names_counterexample",
    "Verif.TrajText.C99_header_counterexample",
    "Verif.TrajText.C99_no_names_hangs"
   ],
   "note": "The counterexamples show names taken from numbers when the names are missing or when the header is not recognised."
  },
  {
   "property": "C100",
   "status": "proved",
   "theorems": [
    "Verif.TaskConti.C100_terminates",
    "Verif.TaskConti.C100_terminates_iff",
    "Verif.TaskConti.C100_no_jacobian",
    "Verif.TaskConti.C100_no_time",
    "Verif.TaskConti.C100_inert_counterexample",
    "Verif.TaskConti.C100_inert_case",
    "Verif.TaskConti.C100_start",
    "Verif.TaskConti.C100_to_be_set",
    "Verif.TaskConti.C100_limit",
    "Verif.TaskConti.C100_converges",
    "Verif.TaskConti.C100_tends"
   ],
   "note": "The code does not meet the intended behaviour: counterexamples included."
  },
  {
   "property": "C101",
   "status": "proved",
   "theorems": [
    "Verif.MotionPeriod.C101_empty_counterexample",
    "Verif.MotionPeriod.C101_resized",
    "Verif.MotionPeriod.C101_defined",
    "Verif.MotionPeriod.C101_components",
    "Verif.MotionPeriod.C101_sin",
    "Verif.MotionPeriod.C101_cos",
    "Verif.MotionPeriod.C101_constant",
    "Verif.MotionPeriod.C101_periodic",
    "Verif.MotionPeriod.C101_periodic_before",
    "Verif.MotionPeriod.C101_wrap_counterexample",
    "Verif.MotionPeriod.C101_bounded",
    "Verif.MotionPeriod.C101_case"
   ],
   "note": "The entity's own parameters cannot be set (counterexample); the computation is proved for all parameters."
  },
  {
   "property": "C102",
   "status": "proved",
   "theorems": [
    "Verif.Reference.C102_set_get",
    "Verif.Reference.C102_unknown",
    "Verif.Reference.C102_wrong_class_counterexample",
    "Verif.Reference.C102_no_reference",
    "Verif.Reference.C102_depends",
    "Verif.Reference.C102_exact",
    "Verif.Reference.C102_unset",
    "Verif.Reference.C102_replaced_counterexample",
    "Verif.Reference.C102_wrong_class_stale_counterexample",
    "Verif.Reference.C102_self_counterexample",
    "Verif.Reference.C102_reads",
    "Verif.Reference.C102_errordot_counterexample",
    "Verif.Reference.C102_no_more",
    "Verif.Reference.C102_own",
    "Verif.Reference.C102_case"
   ],
   "note": "Stale dependencies after replacing a reference: counterexamples included."
  },
  {
   "property": "C103",
   "status": "proved",
   "theorems": [
    "Verif.Control.C103_defined",
    "Verif.Control.C103_sizes_counterexample",
    "Verif.Control.C103_components_any",
    "Verif.Control.C103_components",
    "Verif.Control.C103_errors",
    "Verif.Control.C103_gravity",
    "Verif.Control.C103_gravity_value",
    "Verif.Control.C103_convergence",
    "Verif.Control.C103_computed_torque",
    "Verif.Control.C103_case",
    "Verif.Control.C103_convergence_case"
   ],
   "note": "Doubles are reals; mismatched sizes are undefined behaviour (counterexample)."
  },
  {
   "property": "C104",
   "status": "proved",
   "theorems": [
    "Verif.Timing.C104_milliseconds",
    "Verif.Timing.C104_order",
    "Verif.Timing.C104_vector",
    "Verif.Timing.C104_fresh",
    "Verif.Timing.C104_synchro",
    "Verif.Timing.C104_synchroDouble",
    "Verif.Timing.C104_two_stamps_counterexample",
    "Verif.Timing.C104_timer",
    "Verif.Timing.C104_duration",
    "Verif.Timing.C104_duration_add",
    "Verif.Timing.C104_chrono_counterexample",
    "Verif.Timing.C104_case"
   ],
   "note": "The cache of the synchronised signals is assumed as the header describes it, since dynamic-graph is not part of the repository."
  },
  {
   "property": "C105",
   "status": "proved",
   "theorems": [
    "Verif.ParamServer.C105_tree",
    "Verif.ParamServer.C105_names",
    "Verif.ParamServer.C105_before",
    "Verif.ParamServer.C105_period",
    "Verif.ParamServer.C105_display_counterexample",
    "Verif.ParamServer.C105_init_simple_counterexample",
    "Verif.ParamServer.C105_bound",
    "Verif.ParamServer.C105_set_get",
    "Verif.ParamServer.C105_missing",
    "Verif.ParamServer.C105_kept",
    "Verif.ParamServer.C105_robots",
    "Verif.ParamServer.C105_prefix_counterexample",
    "Verif.ParamServer.C105_separator_counterexample",
    "Verif.ParamServer.C105_frames",
    "Verif.ParamServer.C105_hands",
    "Verif.ParamServer.C105_values",
    "Verif.ParamServer.C105_init",
    "Verif.ParamServer.C105_safe",
    "Verif.ParamServer.C105_case"
   ],
   "note": "Boost's property tree is modelled by its documented behaviour; counterexamples included."
  },
  {
   "property": "C106",
   "status": "proved",
   "theorems": [
    "Verif.Loader.C106_legal",
    "Verif.Loader.C106_stopped",
    "Verif.Loader.C106_running",
    "Verif.Loader.C106_not_loaded_counterexample",
    "Verif.Loader.C106_clean_up_running_counterexample",
    "Verif.Loader.C106_disciplined",
    "Verif.Loader.C106_no_leak",
    "Verif.Loader.C106_twice_counterexample",
    "Verif.Loader.C106_missing_function_counterexample",
    "Verif.Loader.C106_wrong_library_counterexample",
    "Verif.Loader.C106_deregistered_twice_counterexample",
    "Verif.Loader.C106_case"
   ],
   "note": "The linker and the loaded library are represented by their answers; counterexamples included."
  },
  {
   "property": "C107",
   "status": "proved",
   "theorems": [
    "Verif.Differentiator.C107_once",
    "Verif.Differentiator.C107_history",
    "Verif.Differentiator.C107_filter",
    "Verif.Differentiator.C107_before_init_counterexample",
    "Verif.Differentiator.C107_sizes_counterexample",
    "Verif.Differentiator.C107_second_init_counterexample",
    "Verif.Differentiator.C107_case"
   ],
   "note": "On the model of Differentiator/Model.lean, on top of the causal filter (C32). The caching of the signals of dynamic-graph is an assumption."
  },
  {
   "property": "C108",
   "status": "proved",
   "theorems": [
    "Verif.Tail.C108_loop",
    "Verif.Tail.C108_follow",
    "Verif.Tail.C108_missing_file",
    "Verif.Tail.C108_open",
    "Verif.Tail.C108_ready",
    "Verif.Tail.C108_next_counterexample",
    "Verif.Tail.C108_empty_line_counterexample",
    "Verif.Tail.C108_incomplete_line_counterexample",
    "Verif.Tail.C108_long_line_counterexample",
    "Verif.Tail.C108_case"
   ],
   "note": "The behaviour of the streams of the C++ library is modelled from its standard; where the standard leaves a choice (eofbit with a full buffer) both choices are covered."
  },
  {
   "property": "C109",
   "status": "proved",
   "theorems": [
    "Verif.KernelMem.C109_projectors",
    "Verif.KernelMem.C109_history",
    "Verif.KernelMem.C109_steady",
    "Verif.KernelMem.C109_full_rank",
    "Verif.KernelMem.C109_requests",
    "Verif.KernelMem.C109_twice_counterexample",
    "Verif.KernelMem.C109_disabled_counterexample",
    "Verif.KernelMem.C109_case"
   ],
   "note": "What a level computes from its projector is a function, arbitrary; the control and the SVD are in Sot. An aliased product is an undefined outcome."
  },
  {
   "property": "C110",
   "status": "proved",
   "theorems": [
    "Verif.Homogeneous.C110_compose",
    "Verif.Homogeneous.C110_compose_size",
    "Verif.Homogeneous.C110_decompose",
    "Verif.Homogeneous.C110_convert",
    "Verif.Homogeneous.C110_inverse",
    "Verif.Homogeneous.C110_not_affine_counterexample",
    "Verif.Homogeneous.C110_inverse_matrix",
    "Verif.Homogeneous.C110_inverse_not_square",
    "Verif.Homogeneous.C110_inverse_rotation",
    "Verif.Homogeneous.C110_point",
    "Verif.Homogeneous.C110_apply_twice",
    "Verif.Homogeneous.C110_point_size_counterexample",
    "Verif.Homogeneous.C110_matrix_vector",
    "Verif.Homogeneous.C110_substract",
    "Verif.Homogeneous.C110_scale_compare",
    "Verif.Homogeneous.C110_norm",
    "Verif.Homogeneous.C110_case"
   ],
   "note": "The statement describes the failures; they are proved as counterexamples."
  },
  {
   "property": "C111",
   "status": "proved",
   "theorems": [
    "Verif.MatrixUtil.C111_rotate",
    "Verif.MatrixUtil.C111_pose_to_matrix",
    "Verif.MatrixUtil.C111_matrix_roundtrip",
    "Verif.MatrixUtil.C111_band_error",
    "Verif.MatrixUtil.C111_angles_roundtrip",
    "Verif.MatrixUtil.C111_order_counterexample",
    "Verif.MatrixUtil.C111_band_counterexample",
    "Verif.MatrixUtil.C111_distance",
    "Verif.MatrixUtil.C111_quaternion",
    "Verif.MatrixUtil.C111_orthonormal",
    "Verif.MatrixUtil.C111_reflection_counterexample",
    "Verif.MatrixUtil.C111_case"
   ],
   "note": "The statement describes the failures; they are proved as counterexamples. Floats are reals."
  },
  {
   "property": "C112",
   "status": "proved",
   "theorems": [
    "Verif.Calendar.C112_register",
    "Verif.Calendar.C112_stop",
    "Verif.Calendar.C112_stop_error",
    "Verif.Calendar.C112_register_many",
    "Verif.Calendar.C112_register_doc",
    "Verif.Calendar.C112_list_counterexample",
    "Verif.Calendar.C112_stop_doc_counterexample",
    "Verif.Calendar.C112_stop_decorated_counterexample",
    "Verif.Calendar.C112_run",
    "Verif.Calendar.C112_fast_forward",
    "Verif.Calendar.C112_stop_inside_counterexample",
    "Verif.Calendar.C112_register_inside",
    "Verif.Calendar.C112_endless_counterexample",
    "Verif.Calendar.C112_exception",
    "Verif.Calendar.C112_case"
   ],
   "note": "The statement describes the failures; they are proved as counterexamples."
  },
  {
   "property": "C113",
   "status": "proved",
   "theorems": [
    "Verif.ThreadLoop.C113_count",
    "Verif.ThreadLoop.C113_pause",
    "Verif.ThreadLoop.C113_quit",
    "Verif.ThreadLoop.C113_once",
    "Verif.ThreadLoop.C113_play",
    "Verif.ThreadLoop.C113_play_running",
    "Verif.ThreadLoop.C113_quit_lost_counterexample",
    "Verif.ThreadLoop.C113_once_lost_counterexample",
    "Verif.ThreadLoop.C113_play_undone_counterexample",
    "Verif.ThreadLoop.C113_start_twice_counterexample",
    "Verif.ThreadLoop.C113_case",
    "Verif.ThreadLoop.C113_restart_counterexample",
    "Verif.ThreadLoop.C113_restart_case",
    "Verif.ThreadLoop.C113_next_counterexample"
   ],
   "note": "The statement describes the races; they are proved as counterexamples. Each line that reads or writes an attribute is one step."
  },
  {
   "property": "C114",
   "status": "proved",
   "theorems": [
    "Verif.Posture.C114_limbs",
    "Verif.Posture.C114_returns",
    "Verif.Posture.C114_posture",
    "Verif.Posture.C114_first_use_counterexample",
    "Verif.Posture.C114_second_robot_counterexample",
    "Verif.Posture.C114_caller_counterexample",
    "Verif.Posture.C114_case"
   ],
   "note": "failures described in the statement are proved as counterexamples"
  },
  {
   "property": "C115",
   "status": "proved",
   "theorems": [
    "Verif.MetaTask.C115_exist",
    "Verif.MetaTask.C115_exist_counterexample",
    "Verif.MetaTask.C115_visual_counterexample",
    "Verif.MetaTask.C115_modif_off",
    "Verif.MetaTask.C115_modif_to",
    "Verif.MetaTask.C115_modif_start",
    "Verif.MetaTask.C115_modif_refused",
    "Verif.MetaTask.C115_modif_refused_counterexample",
    "Verif.MetaTask.C115_relative",
    "Verif.MetaTask.C115_gain",
    "Verif.MetaTask.C115_gain_counterexample",
    "Verif.MetaTask.C115_translation",
    "Verif.MetaTask.C115_pose",
    "Verif.MetaTask.C115_matrix",
    "Verif.MetaTask.C115_refused",
    "Verif.MetaTask.C115_identity_counterexample",
    "Verif.MetaTask.C115_goto6d",
    "Verif.MetaTask.C115_failed",
    "Verif.MetaTask.C115_gotoNd",
    "Verif.MetaTask.C115_goto_relative",
    "Verif.MetaTask.C115_tuple_identity",
    "Verif.MetaTask.C115_case"
   ],
   "note": "failures described in the statement are proved as counterexamples"
  },
  {
   "property": "C116",
   "status": "proved",
   "theorems": [
    "Verif.History.C116_records",
    "Verif.History.C116_restore",
    "Verif.History.C116_time_counterexample",
    "Verif.History.C116_late_counterexample",
    "Verif.History.C116_twice_counterexample",
    "Verif.History.C116_range",
    "Verif.History.C116_dump",
    "Verif.History.C116_degrees",
    "Verif.History.C116_sample_counterexample",
    "Verif.History.C116_case"
   ],
   "note": "failures described in the statement are proved as counterexamples"
  },
  {
   "property": "C117",
   "status": "proved",
   "theorems": [
    "Verif.Errors.C117_codes",
    "Verif.Errors.C117_code_table",
    "Verif.Errors.C117_print_injective",
    "Verif.Errors.C117_print",
    "Verif.Errors.C117_what",
    "Verif.Errors.C117_format",
    "Verif.Errors.C117_format_undefined",
    "Verif.Errors.C117_message_lost_counterexample",
    "Verif.Errors.C117_no_arguments",
    "Verif.Errors.C117_rethrow",
    "Verif.Errors.C117_size_error_counterexample",
    "Verif.Errors.C117_visual_counterexample",
    "Verif.Errors.C117_pool",
    "Verif.Errors.C117_truncation_counterexample",
    "Verif.Errors.C117_case"
   ],
   "note": "The statement describes the losses of messages; conversions other than those used by the library are taken as undefined."
  },
  {
   "property": "C118",
   "status": "proved",
   "theorems": [
    "Verif.Debug.C118_journal",
    "Verif.Debug.C118_lines",
    "Verif.Debug.C118_nothing_waits",
    "Verif.Debug.C118_open",
    "Verif.Debug.C118_open_iff",
    "Verif.Debug.C118_never_dangling",
    "Verif.Debug.C118_erased_counterexample",
    "Verif.Debug.C118_close",
    "Verif.Debug.C118_stuck_counterexample",
    "Verif.Debug.C118_error_level_counterexample",
    "Verif.Debug.C118_quiet",
    "Verif.Debug.C118_case"
   ],
   "note": "The statement describes the failures; the renderings of the formats are given."
  },
  {
   "property": "C119",
   "status": "proved",
   "theorems": [
    "Verif.Texts.C119_list",
    "Verif.Texts.C119_features",
    "Verif.Texts.C119_quote_counterexample",
    "Verif.Texts.C119_display_stack",
    "Verif.Texts.C119_display_task",
    "Verif.Texts.C119_graph_task",
    "Verif.Texts.C119_graph_stack",
    "Verif.Texts.C119_graph_balanced",
    "Verif.Texts.C119_pool_unclosed_counterexample",
    "Verif.Texts.C119_name_plain",
    "Verif.Texts.C119_name_directory_counterexample",
    "Verif.Texts.C119_name_dot_counterexample",
    "Verif.Texts.C119_name_cases",
    "Verif.Texts.C119_case"
   ],
   "note": "The statement describes the malformed texts; the date of the graph is given."
  },
  {
   "property": "C120",
   "status": "proved",
   "theorems": [
    "Verif.Depend.C120_errors",
    "Verif.Depend.C120_jacobians",
    "Verif.Depend.C120_pd",
    "Verif.Depend.C120_operational",
    "Verif.Depend.C120_one_counterexample",
    "Verif.Depend.C120_posture_counterexample",
    "Verif.Depend.C120_limits_counterexample",
    "Verif.Depend.C120_vector_counterexample",
    "Verif.Depend.C120_line_counterexample",
    "Verif.Depend.C120_point6d_counterexample",
    "Verif.Depend.C120_relative_counterexample",
    "Verif.Depend.C120_operational_counterexample",
    "Verif.Depend.C120_force_counterexample",
    "Verif.Depend.C120_kalman_counterexample",
    "Verif.Depend.C120_only",
    "Verif.Depend.C120_only_kalman",
    "Verif.Depend.C120_case_graph",
    "Verif.Depend.C120_case_posture",
    "Verif.Depend.C120_iff",
    "Verif.Depend.C120_forgets",
    "Verif.Depend.C120_forgets_stale",
    "Verif.Depend.C120_graph",
    "Verif.Depend.C120_progress"
   ],
   "note": "The cache of dynamic-graph, which is not in the repository, is assumed: an output is computed again exactly when it has no value or a declared input has been set since. The outputs that forget inputs are part of the statement."
  },
  {
   "property": "C121",
   "status": "proved",
   "theorems": [
    "Verif.Small.C121_flushed_once",
    "Verif.Small.C121_interrupted_keeps",
    "Verif.Small.C121_plain_keeps",
    "Verif.Small.C121_setflag_stores",
    "Verif.Small.C121_setflag_accepts",
    "Verif.Small.C121_setflag_announced_form_counterexample",
    "Verif.Small.C121_setflag_other",
    "Verif.Small.C121_vector_constant",
    "Verif.Small.C121_matrix_constant",
    "Verif.Small.C121_double_constant",
    "Verif.Small.C121_binary",
    "Verif.Small.C121_windows_clock",
    "Verif.Small.C121_windows_clock_after_2038_counterexample",
    "Verif.Small.C121_windows_clock_before_1970_counterexample",
    "Verif.Small.C121_zone_once"
   ],
   "note": "the failures of the announced form of setflag and of the clock are part of the statement"
  },
  {
   "property": "C122",
   "status": "proved",
   "theorems": [
    "Verif.Viewer.C122_log",
    "Verif.Viewer.C122_log_others",
    "Verif.Viewer.C122_log_removes_counterexample",
    "Verif.Viewer.C122_log_reads_back",
    "Verif.Viewer.C122_installed_once",
    "Verif.Viewer.C122_no_viewer",
    "Verif.Viewer.C122_installed_twice_counterexample",
    "Verif.Viewer.C122_second_robot_counterexample",
    "Verif.Viewer.C122_sent_name",
    "Verif.Viewer.C122_sent_name_counterexample",
    "Verif.Viewer.C122_state_tuple",
    "Verif.Viewer.C122_state_array_counterexample",
    "Verif.Viewer.C122_state_single_counterexample",
    "Verif.Viewer.C122_pings",
    "Verif.Viewer.C122_com"
   ],
   "note": "the failures are part of the statement"
  },
  {
   "property": "C123",
   "status": "proved",
   "theorems": [
    "Verif.PyFeature.C123_position_error",
    "Verif.PyFeature.C123_position_reference_later",
    "Verif.PyFeature.C123_position_array_counterexample",
    "Verif.PyFeature.C123_position_keep",
    "Verif.PyFeature.C123_position_signals",
    "Verif.PyFeature.C123_default_position",
    "Verif.PyFeature.C123_relative_error",
    "Verif.PyFeature.C123_relative_invariant",
    "Verif.PyFeature.C123_relative_lost_reference_counterexample",
    "Verif.PyFeature.C123_relative_keep_counterexample",
    "Verif.PyFeature.C123_relative_announced_error_counterexample",
    "Verif.PyFeature.C123_relative_signals"
   ],
   "note": "the failures are part of the statement"
  },
  {
   "property": "C124",
   "status": "proved",
   "theorems": [
    "Verif.Loop.C124_approach",
    "Verif.Loop.C124_converges",
    "Verif.Loop.C124_too_fast",
    "Verif.Loop.C124_unstable"
   ],
   "note": "The features, the task, the stack and the device are those of their own models, connected as the signals are. The first six joints go through the integration of the base and are not described."
  },
  {
   "property": "C125",
   "status": "proved",
   "theorems": [
    "Verif.Sot.C125_compatible",
    "Verif.Sot.C125_same_control",
    "Verif.Sot.C125_margin_regular"
   ],
   "note": "The acceleration of a full posture is not used."
  },
  {
   "property": "C126",
   "status": "proved",
   "theorems": [
    "Verif.Loop.C126_errors",
    "Verif.Loop.C126_line",
    "Verif.Loop.C126_converges",
    "Verif.Loop.C126_decrease"
   ],
   "note": "The features are given by a function and a matrix; each task has one feature (with several, the first evaluation loses errors, see C14). The first six joints go through the integration of the base and are not described."
  },
  {
   "property": "C127",
   "status": "proved",
   "theorems": [
    "Verif.ParamServer.C127_accepted",
    "Verif.ParamServer.C127_before",
    "Verif.ParamServer.C127_joint_limits",
    "Verif.ParamServer.C127_force_limits",
    "Verif.ParamServer.C127_joint_id",
    "Verif.ParamServer.C127_force_id",
    "Verif.ParamServer.C127_names",
    "Verif.ParamServer.C127_never_set",
    "Verif.ParamServer.C127_order",
    "Verif.ParamServer.C127_apart",
    "Verif.ParamServer.C127_in_range",
    "Verif.ParamServer.C127_convert"
   ],
   "note": "Doubles are rationals: infinities and NaN, whose conversion is also undefined, are not modelled. Tables of names as in C44."
  },
  {
   "property": "C128",
   "status": "proved",
   "theorems": [
    "Verif.TaskEdit.C128_list",
    "Verif.TaskEdit.C128_name",
    "Verif.TaskEdit.C128_depends",
    "Verif.TaskEdit.C128_features_up_to_date",
    "Verif.TaskEdit.C128_task_up_to_date",
    "Verif.TaskEdit.C128_unilateral_up_to_date",
    "Verif.TaskEdit.C128_pd_counterexample",
    "Verif.TaskEdit.C128_selection_seen",
    "Verif.TaskEdit.C128_values",
    "Verif.TaskEdit.C128_derivative",
    "Verif.TaskEdit.C128_velocity",
    "Verif.TaskEdit.C128_unilateral",
    "Verif.TaskEdit.C128_touched",
    "Verif.TaskEdit.C128_first",
    "Verif.TaskEdit.C128_unedited",
    "Verif.TaskEdit.C128_edits_alone",
    "Verif.TaskEdit.C128_edits_counterexample",
    "Verif.TaskEdit.C128_selection",
    "Verif.TaskEdit.C128_selection_lost"
   ],
   "note": "The statement describes the failures: edits alone do not change an answer (C128_edits_alone, C128_edits_counterexample) and the PD task forgets an input (C128_pd_counterexample). The behaviour of the lists of dependencies and of the caches is that assumed of dynamic-graph."
  },
  {
   "property": "C129",
   "status": "proved",
   "theorems": [
    "Verif.Rounding.C129_drift",
    "Verif.Rounding.C129_checked_drift",
    "Verif.Rounding.C129_unchecked_drift",
    "Verif.Rounding.C129_double",
    "Verif.Rounding.C129_bounds"
   ],
   "note": "Drift of the rounded positions, with and without checks; in double precision."
  },
  {
   "property": "C130",
   "status": "proved",
   "theorems": [
    "Verif.Rounding.C130_inside",
    "Verif.Rounding.C130_rounded",
    "Verif.Rounding.C130_period_counterexample"
   ],
   "note": "Invariant over all sequences of controls, any arithmetic; counterexample for another period."
  },
  {
   "property": "C131",
   "status": "proved",
   "theorems": [
    "Verif.Rounding.C131_converges",
    "Verif.Rounding.C131_double"
   ],
   "note": "Contraction with rounding; numbers for double precision."
  },
  {
   "property": "C132",
   "status": "proved",
   "theorems": [
    "Verif.Rounding.C132_average",
    "Verif.Rounding.C132_filter"
   ],
   "note": "Both filters; state of the FIR filter is not computed, so errors do not accumulate."
  },
  {
   "property": "C133",
   "status": "proved",
   "theorems": [
    "Verif.Rounding.C133_stamp",
    "Verif.Rounding.C133_order",
    "Verif.Rounding.C133_duration"
   ],
   "note": "Half a microsecond up to 2096; order; durations."
  },
  {
   "property": "C134",
   "status": "proved",
   "theorems": [
    "Verif.Wiring.C134_wired",
    "Verif.Wiring.C134_runs",
    "Verif.Wiring.C134_apart_points",
    "Verif.Wiring.C134_apart_plain",
    "Verif.Wiring.C134_twice_counterexample",
    "Verif.Wiring.C134_ref_counterexample",
    "Verif.Wiring.C134_base_counterexample",
    "Verif.Wiring.C134_class_counterexample"
   ],
   "note": "All scripts by induction; exact condition on the names; counterexamples for colliding names."
  },
  {
   "property": "C135",
   "status": "proved",
   "theorems": [
    "Verif.Loop.C135_converges",
    "Verif.Loop.C135_gain_entities",
    "Verif.Loop.C135_stops",
    "Verif.Loop.C135_stops_counterexample",
    "Verif.Loop.C135_stack"
   ],
   "note": "The statement describes the stop, shown by a theorem and a concrete counterexample."
  },
  {
   "property": "C136",
   "status": "proved",
   "theorems": [
    "Verif.Sot.C136_linear",
    "Verif.Sot.C136_continuous",
    "Verif.Sot.C136_jump_counterexample",
    "Verif.Sot.C136_unit_counterexample",
    "Verif.Sot.C136_total",
    "Verif.Sot.C136_bounded",
    "Verif.Sot.C136_change"
   ],
   "note": "The acceleration of a full posture is not used. The statement describes the jumps; they are the theorems C136_jump_counterexample and C136_unit_counterexample."
  },
  {
   "property": "C137",
   "status": "proved",
   "theorems": [
    "Verif.Sot.C137_decomposition",
    "Verif.Sot.C137_projector",
    "Verif.Sot.C137_frame"
   ],
   "note": ""
  },
  {
   "property": "C138",
   "status": "proved",
   "theorems": [
    "Verif.ParamServer.C138_before",
    "Verif.ParamServer.C138_first",
    "Verif.ParamServer.C138_set_get",
    "Verif.ParamServer.C138_second_counterexample",
    "Verif.ParamServer.C138_other_counterexample",
    "Verif.ParamServer.C138_case"
   ],
   "note": "The statement describes the failures; they are proved as counterexamples. Assumes that dynamic-graph refuses a second command of the same name."
  },
  {
   "property": "C139",
   "status": "proved",
   "theorems": [
    "Verif.Quaternion.C139_rotation",
    "Verif.Quaternion.C139_multiply",
    "Verif.Quaternion.C139_conjugate",
    "Verif.Quaternion.C139_multiply_alias_counterexample",
    "Verif.Quaternion.C139_fromMatrix",
    "Verif.Quaternion.C139_half_turn_counterexample",
    "Verif.Quaternion.C139_half_turn_infinite_counterexample",
    "Verif.Quaternion.C139_back",
    "Verif.Quaternion.C139_fromVector_counterexample",
    "Verif.Quaternion.C139_case",
    "Verif.Quaternion.C139_half_turn_case",
    "Verif.Quaternion.C139_fromVector_case"
   ],
   "note": "The statement describes the failures; they are proved as counterexamples. No target of the build contains this file of the repository: the theorems are about its text."
  },
  {
   "property": "C140",
   "status": "proved",
   "theorems": [
    "Verif.Device.C140_step",
    "Verif.Device.C140_constant",
    "Verif.Device.C140_subdivision",
    "Verif.Device.C140_back",
    "Verif.Device.C140_distance",
    "Verif.Device.C140_acceleration",
    "Verif.Device.C140_nan_counterexample",
    "Verif.Device.C140_pose",
    "Verif.Device.C140_pose_copy_counterexample",
    "Verif.Device.C140_pose_refused",
    "Verif.Device.C140_rest_counterexample",
    "Verif.Device.C140_pose_counterexample",
    "Verif.Device.C140_case",
    "Verif.Device.C140_rest_case",
    "Verif.Device.C140_nan_case"
   ],
   "note": "The statement includes the failures with the checks on, with NaN, and of the published pose when the device copies the control."
  },
  {
   "property": "C141",
   "status": "proved",
   "theorems": [
    "Verif.Point6d.C141_selected",
    "Verif.Point6d.C141_error_zero",
    "Verif.Point6d.C141_error",
    "Verif.Point6d.C141_keep",
    "Verif.Point6d.C141_no_ja",
    "Verif.Point6d.C141_errordot",
    "Verif.Point6d.C141_jacobian",
    "Verif.Point6d.C141_decay",
    "Verif.Point6d.C141_screw",
    "Verif.Point6d.C141_case"
   ],
   "note": "Exact for the six components, moving desired pose included; the derivative of the logarithm of SE(3) is proved for the formulas of pinocchio (Verif.Se3), the half turn excepted."
  },
  {
   "property": "C142",
   "status": "proved",
   "theorems": [
    "Verif.Loop.C142_approach",
    "Verif.Loop.C142_path",
    "Verif.Loop.C142_converges",
    "Verif.Loop.C142_once",
    "Verif.Loop.C142_case"
   ],
   "note": "Exact trajectory of the closed loop; the Jacobian of the base in its own frame is the identity on the first six degrees of freedom (the robot model is outside the library)."
  },
  {
   "property": "C143",
   "status": "proved",
   "theorems": [
    "Verif.Loop.C143_decoupled",
    "Verif.Loop.C143_converges",
    "Verif.Loop.C143_case"
   ],
   "note": "Exact comparison of three closed loops; the tasks of the joints are affine and do not depend on the base; the Jacobian of the base in its own frame is the identity on the first six degrees of freedom (the robot model is outside the library)."
  },
  {
   "property": "C144",
   "status": "proved",
   "theorems": [
    "Verif.MatrixSvd.C144_numbers",
    "Verif.MatrixSvd.C144_null",
    "Verif.MatrixSvd.C144_same",
    "Verif.MatrixSvd.C144_bounded",
    "Verif.MatrixSvd.C144_reached",
    "Verif.MatrixSvd.C144_monotone",
    "Verif.MatrixSvd.C144_residual",
    "Verif.MatrixSvd.C144_limit",
    "Verif.MatrixSvd.C144_rate",
    "Verif.MatrixSvd.C144_case"
   ],
   "note": "Real numbers; the NaN of zero over zero is an outcome of the entries, infinities and rounding are not modelled."
  },
  {
   "property": "C145",
   "status": "proved",
   "theorems": [
    "Verif.Loop.C145_step",
    "Verif.Loop.C145_trajectory",
    "Verif.Loop.C145_converges",
    "Verif.Loop.C145_straight",
    "Verif.Loop.C145_twice",
    "Verif.Loop.C145_grows_counterexample",
    "Verif.Loop.C145_case"
   ],
   "note": "R3xSO3 representation; the quarter of a turn is a hypothesis of the trajectory and of the convergence, and the growth beyond it is proved by a counterexample; doubles are reals"
  },
  {
   "property": "C146",
   "status": "proved",
   "theorems": [
    "Verif.Mailbox.C146_recovers",
    "Verif.Mailbox.C146_between_dates",
    "Verif.Mailbox.C146_sout",
    "Verif.Mailbox.C146_origin",
    "Verif.Mailbox.C146_same_date_counterexample",
    "Verif.Mailbox.C146_busy_counterexample",
    "Verif.Mailbox.C146_case"
   ],
   "note": "The caches of the signals are assumptions on dynamic-graph, listed in Mailbox/Signals.lean; the reading of an output is not interrupted"
  },
  {
   "property": "C147",
   "status": "proved",
   "theorems": [
    "Verif.Loop.C147_step",
    "Verif.Loop.C147_trajectory",
    "Verif.Loop.C147_converges",
    "Verif.Loop.C147_any_angle",
    "Verif.Loop.C147_straight",
    "Verif.Loop.C147_twice",
    "Verif.Loop.C147_frames",
    "Verif.Loop.C147_pose_feature",
    "Verif.Loop.C147_case",
    "Verif.Loop.C147_twice_case"
   ],
   "note": "the signals of the operational point of the robot are by specification the pose of the base and its Jacobian in its own frame; the displaced point is given with isEndEffector"
  },
  {
   "property": "C148",
   "status": "proved",
   "theorems": [
    "Verif.Loop.C148_trajectory",
    "Verif.Loop.C148_converges",
    "Verif.Loop.C148_any_angle",
    "Verif.Loop.C148_gain_entities",
    "Verif.Loop.C148_case"
   ],
   "note": "the signals of the operational point of the robot are by specification the pose of the base and its Jacobian in its own frame; the displaced point is given with isEndEffector"
  },
  {
   "property": "C149",
   "status": "proved",
   "theorems": [
    "Verif.Rounding.C149_double",
    "Verif.Rounding.C149_limits",
    "Verif.Rounding.C149_width_double",
    "Verif.Rounding.C149_unilateral",
    "Verif.Rounding.C149_unilateral_run",
    "Verif.Rounding.C149_unilateral_double",
    "Verif.Rounding.C149_admittance",
    "Verif.Rounding.C149_adaptive_gain",
    "Verif.Rounding.C149_hyperbolic_gain"
   ],
   "note": "joint-limit feature, unilateral task, admittance and gains with any rounding that keeps the order; the exponential and the hyperbolic tangent of the library are any functions that keep the order"
  },
  {
   "property": "C150",
   "status": "partial",
   "theorems": [
    "Verif.Rounding.C150_zero",
    "Verif.Rounding.C150_moves",
    "Verif.Rounding.C150_lost_counterexample",
    "Verif.Rounding.C150_quarter_counterexample",
    "Verif.Rounding.C150_default"
   ],
   "note": "fails for offsets below 1/2, between 2/3 and 3/4 and so on (C150_lost_counterexample, C150_quarter_counterexample); holds for the offset of the constructor"
  },
  {
   "property": "C151",
   "status": "proved",
   "theorems": [
    "Verif.Loop.C151_orientation",
    "Verif.Loop.C151_axes",
    "Verif.Loop.C151_case",
    "Verif.Loop.C151_axes_case",
    "Verif.Loop.C151_orientation_case",
    "Verif.Loop.C151_straight_case",
    "Verif.Loop.C151_position",
    "Verif.Loop.C151_rest",
    "Verif.Loop.C151_straight",
    "Verif.Loop.C151_turns"
   ],
   "note": "position only, orientation only and sets of axes, in closed loop; (d) is for the frame of the reference with the point at the origin of the base"
  },
  {
   "property": "C152",
   "status": "proved",
   "theorems": [
    "Verif.Loop.C152_error",
    "Verif.Loop.C152_exact",
    "Verif.Loop.C152_lag",
    "Verif.Loop.C152_bound",
    "Verif.Loop.C152_limit",
    "Verif.Loop.C152_quiet",
    "Verif.Loop.C152_lost",
    "Verif.Loop.C152_case"
   ],
   "note": "closed form of the distance to a moving posture, its limit and bound, the condition under which nothing is reported, and a posture too far to be followed"
  },
  {
   "property": "C153",
   "status": "proved",
   "theorems": [
    "Verif.Loop.C153_recurrence",
    "Verif.Loop.C153_converges",
    "Verif.Loop.C153_quiet",
    "Verif.Loop.C153_unstable",
    "Verif.Loop.C153_case",
    "Verif.Loop.C153_unstable_case"
   ],
   "note": "the recurrence of the distance, the region of convergence, a bound under which nothing is reported, and the region where the task ends up reported"
  },
  {
   "property": "C154",
   "status": "proved",
   "theorems": [
    "Verif.Loop.C154_approach",
    "Verif.Loop.C154_converges",
    "Verif.Loop.C154_first",
    "Verif.Loop.C154_case"
   ],
   "note": "the statement describes the loss of components at the first evaluation (C14)"
  },
  {
   "property": "C155",
   "status": "proved",
   "theorems": [
    "Verif.Script.C155_script",
    "Verif.Script.C155_list",
    "Verif.Script.C155_independent",
    "Verif.Script.C155_deleted_counterexample",
    "Verif.Script.C155_case"
   ],
   "note": "the statement describes what a deleted task does"
  },
  {
   "property": "C156",
   "status": "proved",
   "theorems": [
    "Verif.JointTraj.C156_coherent",
    "Verif.JointTraj.C156_once",
    "Verif.JointTraj.C156_skip",
    "Verif.JointTraj.C156_command_counterexample"
   ],
   "note": "the statement describes what a command between two readings does; the caches of dynamic-graph are assumed as said in the file"
  },
  {
   "property": "C157",
   "status": "proved",
   "theorems": [
    "Verif.Causal.C157_bounded",
    "Verif.Causal.C157_converges",
    "Verif.Causal.C157_second_order",
    "Verif.Causal.C157_unbounded_counterexample",
    "Verif.Causal.C157_case"
   ],
   "note": "The condition for any order is sufficient and not necessary; for three coefficients, with columns of one value and inputs that become constant, it is the exact one on the roots. Columns are in any normed space for the first."
  },
  {
   "property": "C158",
   "status": "proved",
   "theorems": [
    "Verif.Fir.C158_settles",
    "Verif.Fir.C158_bounded",
    "Verif.Fir.C158_converges",
    "Verif.Fir.C158_filters",
    "Verif.Fir.C158_scalar_counterexample",
    "Verif.Fir.C158_case"
   ],
   "note": "The number of work buffers of the signal is a parameter, because the signals are in dynamic-graph. A matrix coefficient that was never set is empty in the code and zero in the model, so that the part on matrices is about filters whose coefficients have all been set."
  },
  {
   "property": "C159",
   "status": "proved",
   "theorems": [
    "Verif.Script.Features.C159_script",
    "Verif.Script.Features.C159_defined",
    "Verif.Script.Features.C159_list",
    "Verif.Script.Features.C159_deleted_counterexample",
    "Verif.Script.Features.C159_case"
   ],
   "note": "The statement describes the undefined cases. Tasks exist from the start and are numbered; signals are not evaluated."
  },
  {
   "property": "C160",
   "status": "proved",
   "theorems": [
    "Verif.Memory.C160_constant",
    "Verif.Memory.C160_ramp",
    "Verif.Memory.C160_converges",
    "Verif.Memory.C160_weight_counterexample",
    "Verif.Memory.C160_case"
   ],
   "note": "The weight does not change during the history; the statement describes the weights for which the average does not follow."
  },
  {
   "property": "C161",
   "status": "proved",
   "theorems": [
    "Verif.Causal.C161_switch",
    "Verif.Causal.C161_bounded",
    "Verif.Causal.C161_converges",
    "Verif.Causal.C161_case"
   ],
   "note": "Equality with a new filter for all histories, then bounds and limits by C157. Which input the new filter starts from is stated exactly; that it is not the latest is C66."
  }
 ]
}