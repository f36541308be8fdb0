# Axioms of the theorems of the manifest

Read from the compiled environment (the same computation as `#print axioms`), one group per set of axioms.

## No axiom

* `Verif.Debug`: `C118_case`
* `Verif.Event`: `C28_first_evaluation_counterexample`, `C28_repeat_change_counterexample`
* `Verif.Features`: `C50_dimension_counterexample`
* `Verif.Freezer`: `C39_no_tracking_after_stop_counterexample`, `C39_not_frozen_at_first_counterexample`
* `Verif.History`: `C116_case`
* `Verif.MetaTask`: `C115_visual_counterexample`
* `Verif.MultiBound`: `C05_constructors`
* `Verif.Operators`: `C49_bool_empty_counterexample`, `C49_multiplier_vector_sizes`, `C82_transpose`
* `Verif.Periodic`: `C27_negative_tick_counterexample`, `C27_zero_factor_counterexample`
* `Verif.Small`: `C121_setflag_other`
* `Verif.Sot`: `C07_clear`
* `Verif.ThreadLoop`: `C113_case`, `C113_play_running`, `C113_restart_case`, `C113_start_twice_counterexample`
* `Verif.TrajText`: `C99_copy`
* `Verif.Viewer`: `C122_sent_name_counterexample`

## `propext`

* `Verif.Calendar`: `C112_exception`
* `Verif.Debug`: `C118_close`, `C118_stuck_counterexample`
* `Verif.Device`: `C26_setup`
* `Verif.Errors`: `C117_rethrow`
* `Verif.Features`: `C83_no_reference`, `C83_too_short`
* `Verif.Fir`: `C30_scalar_counterexample`, `C30_set_element_counterexample`, `C31_zero_capacity_counterexample`
* `Verif.Flags`: `C04_default_lost_counterexample`, `C04_print_parse`
* `Verif.History`: `C116_records`, `C116_twice_counterexample`
* `Verif.JointTraj`: `C156_command_counterexample`, `C156_skip`, `C42_no_init_counterexample`, `C42_stamps_counterexample`
* `Verif.KernelMem`: `C109_case`, `C109_disabled_counterexample`
* `Verif.Loader`: `C106_clean_up_running_counterexample`, `C106_deregistered_twice_counterexample`, `C106_running`, `C106_stopped`
* `Verif.Mailbox`: `C146_origin`, `C29_alternating_buffers_counterexample`
* `Verif.MultiBound`: `C06_round_trip_partial`
* `Verif.Operators`: `C48_mix_no_input`, `C49_bool`, `C49_multiplier`, `C79_weighted`, `C82_diagonal_resize_counterexample`, `C82_unset`
* `Verif.Pool`: `C78_plain_file`
* `Verif.PyFeature`: `C123_relative_signals`
* `Verif.Reference`: `C102_case`, `C102_depends`, `C102_no_more`, `C102_no_reference`, `C102_own`, `C102_reads`, `C102_set_get`, `C102_unknown`, `C102_wrong_class_counterexample`, `C102_wrong_class_stale_counterexample`
* `Verif.RobotUtils`: `C43_before_mapping_counterexample`, `C43_empty_mapping_rejected`, `C43_repeated_index_counterexample`, `C77_joint_limits`
* `Verif.Sequencer`: `C62_event_not_run_counterexample`, `C62_minus_one_counterexample`, `C62_no_stack_counterexample`, `C92_add`, `C92_clear`, `C92_clear_shared_counterexample`, `C92_remove_absent`, `C92_remove_no_time`
* `Verif.Small`: `C121_interrupted_keeps`, `C121_plain_keeps`, `C121_windows_clock_before_1970_counterexample`
* `Verif.Sot`: `C07_pop`, `C07_pop_empty_ub`, `C07_push`, `C08_change_marks_ready`
* `Verif.Tail`: `C108_next_counterexample`
* `Verif.TaskEdit`: `C128_first`, `C128_name`
* `Verif.Texts`: `C119_name_cases`, `C119_name_plain`
* `Verif.ThreadLoop`: `C113_count`, `C113_pause`, `C113_play_undone_counterexample`
* `Verif.Variadic`: `C46_name_clash_counterexample`, `C46_remove_empty_counterexample`, `C47_boolean`, `C47_out_of_range`
* `Verif.Viewer`: `C122_installed_once`, `C122_installed_twice_counterexample`, `C122_no_viewer`, `C122_second_robot_counterexample`, `C122_sent_name`, `C122_state_array_counterexample`, `C122_state_single_counterexample`, `C122_state_tuple`

## `Quot.sound`, `propext`

* `Verif.Admittance`: `C60_init`
* `Verif.Calendar`: `C112_case`, `C112_endless_counterexample`, `C112_list_counterexample`, `C112_register`, `C112_register_doc`, `C112_register_inside`, `C112_register_many`, `C112_stop_decorated_counterexample`, `C112_stop_doc_counterexample`, `C112_stop_error`
* `Verif.Control`: `C103_case`
* `Verif.Debug`: `C118_erased_counterexample`, `C118_error_level_counterexample`, `C118_journal`, `C118_lines`, `C118_never_dangling`, `C118_nothing_waits`, `C118_open`, `C118_open_iff`, `C118_quiet`
* `Verif.Depend`: `C120_forgets`, `C120_forgets_stale`, `C120_graph`
* `Verif.Device`: `C23_velocity_mode_free_flyer`, `C24_nan_control_does_not_move`, `C24_nan_controls_history`, `C24_velocity_signal_is_the_control`, `C26_new_device_counterexample`, `C26_resize_counterexample`, `C65_set_root_counterexample`
* `Verif.Errors`: `C117_codes`, `C117_what`
* `Verif.Euler`: `C34_initialize`, `C34_uninitialised_counterexample`
* `Verif.Event`: `C28_output_is_change`, `C28_triggers_on_rising_edges`
* `Verif.Features`: `C50_consistent`, `C50_dimension`, `C50_dimension_history`, `C50_error`, `C50_jacobian`, `C50_short_jacobian_counterexample`, `C51_error`, `C51_error_dot`, `C83_reference`
* `Verif.Flags`: `C01_and_pointwise`, `C01_assign_forms`, `C01_negative_index_ub`, `C01_not_pointwise`, `C01_or_pointwise`, `C01_read_total`, `C02_bool_false_iff_nothing`, `C02_bool_iff_some_selected`, `C03_add_frame`, `C03_set_frame`, `C03_unset_frame`, `C04_ofChars_accepts`, `C04_ofChars_agrees_partial`, `C04_parse_accepts`, `C04_parse_value`
* `Verif.Freezer`: `C39_follows_while_in_process`, `C39_frozen_after_stop_partial`, `C39_output`
* `Verif.Geometry`: `C70_norm_mul`
* `Verif.Gripper`: `C35_no_torque`, `C35_selector`
* `Verif.Homogeneous`: `C110_compose`, `C110_compose_size`, `C110_convert`, `C110_scale_compare`, `C110_substract`
* `Verif.Limits`: `C37_short_vector_ub`, `C38_width`
* `Verif.Loader`: `C106_case`, `C106_missing_function_counterexample`, `C106_not_loaded_counterexample`, `C106_twice_counterexample`, `C106_wrong_library_counterexample`
* `Verif.Mailbox`: `C146_busy_counterexample`, `C146_recovers`, `C146_same_date_counterexample`, `C146_sout`, `C29_operations_are_indivisible`, `C29_read_returns_latest`, `C29_reader_never_waits`, `C29_reads_do_not_go_back`
* `Verif.Memory`: `C68_value_is_sum`, `C69_latch_holds_last_command`
* `Verif.MetaTask`: `C115_modif_refused`, `C115_relative`
* `Verif.MultiBound`: `C05_double_reads_last_set`, `C05_getters_value_or_throw`, `C05_single_reads_last_set`, `C06_accepts_only_complete_text`, `C06_cut_text_is_refused`, `C06_empty_vector_counterexample`, `C06_empty_vector_sequence_counterexample`, `C06_round_trip_int`
* `Verif.Operators`: `C48_component`, `C48_mix_unknown_input`, `C49_multiplier_vector`, `C80_size_change`, `C82_diagonal`
* `Verif.ParamServer`: `C105_tree`
* `Verif.Periodic`: `C27_exception_skips_the_rest`
* `Verif.Reader`: `C41_negative_resize_ub`, `C41_replay_partial`, `C41_rewind_partial`
* `Verif.Reference`: `C102_errordot_counterexample`, `C102_exact`, `C102_replaced_counterexample`, `C102_self_counterexample`, `C102_unset`
* `Verif.Sequencer`: `C62_never_runs_counterexample`, `C92_null_counterexample`, `C92_remove`, `C92_remove_twice_counterexample`
* `Verif.Small`: `C121_double_constant`, `C121_matrix_constant`, `C121_setflag_accepts`, `C121_setflag_announced_form_counterexample`, `C121_setflag_stores`, `C121_vector_constant`, `C121_windows_clock`, `C121_windows_clock_after_2038_counterexample`
* `Verif.Sot`: `C08_duplicate_counterexample`
* `Verif.StopWatch`: `C61_average`, `C61_laps`, `C61_min_last_max`, `C61_other_names`, `C61_total_and_last`, `C61_unknown`, `C91_max`, `C91_min`, `C91_never_started`, `C91_reset_all`, `C91_turned_off`
* `Verif.Tail`: `C108_case`, `C108_empty_line_counterexample`, `C108_follow`, `C108_incomplete_line_counterexample`, `C108_long_line_counterexample`, `C108_loop`, `C108_missing_file`, `C108_open`, `C108_ready`
* `Verif.Task`: `C14_empty_throws`, `C15_empty_throws`, `C15_no_columns_counterexample`, `C15_no_columns_reachable`, `C16_proportional`, `C16_with_derivative`, `C18_short_reference`
* `Verif.TaskEdit`: `C128_derivative`, `C128_edits_alone`, `C128_list`, `C128_selection`, `C128_selection_lost`, `C128_touched`, `C128_unedited`, `C128_velocity`
* `Verif.Texts`: `C119_name_directory_counterexample`, `C119_name_dot_counterexample`
* `Verif.ThreadLoop`: `C113_next_counterexample`, `C113_once_lost_counterexample`, `C113_play`, `C113_quit_lost_counterexample`, `C113_restart_counterexample`
* `Verif.Timing`: `C104_chrono_counterexample`, `C104_fresh`, `C104_synchro`, `C104_synchroDouble`, `C104_timer`, `C104_vector`
* `Verif.Variadic`: `C46_remove`, `C47_selected`
* `Verif.Viewer`: `C122_com`, `C122_pings`
* `Verif.Wiring`: `C134_apart_points`

## `Classical.choice`, `Quot.sound`, `propext`

* `Verif.Admittance`: `C60_before_init`, `C60_bounded`, `C60_negative_saturation_counterexample`, `C60_saturated`, `C90_angular_norm`, `C90_decay`, `C90_output_not_saturated_counterexample`, `C90_power`, `C90_steady`, `C90_step`
* `Verif.Calendar`: `C112_fast_forward`, `C112_run`, `C112_stop`, `C112_stop_inside_counterexample`
* `Verif.Causal`: `C157_bounded`, `C157_case`, `C157_converges`, `C157_second_order`, `C157_unbounded_counterexample`, `C161_bounded`, `C161_case`, `C161_converges`, `C161_switch`, `C32_constant_input`, `C32_difference_equation`, `C32_difference_equation_first_order`, `C32_moving_average_counterexample`, `C32_second_derivative_counterexample`, `C66_switch_at_rest_partial`, `C66_switch_before_first_sample`, `C66_switch_counterexample`
* `Verif.Clamp`: `C36_complementary`, `C36_mode2_counterexample`, `C36_outputs`, `C36_time_zero_counterexample`, `C36_yaw_in_range`
* `Verif.Control`: `C103_components`, `C103_components_any`, `C103_computed_torque`, `C103_convergence`, `C103_convergence_case`, `C103_defined`, `C103_errors`, `C103_gravity`, `C103_gravity_value`, `C103_sizes_counterexample`
* `Verif.Depend`: `C120_case_graph`, `C120_case_posture`, `C120_errors`, `C120_force_counterexample`, `C120_iff`, `C120_jacobians`, `C120_kalman_counterexample`, `C120_limits_counterexample`, `C120_line_counterexample`, `C120_one_counterexample`, `C120_only`, `C120_only_kalman`, `C120_operational`, `C120_operational_counterexample`, `C120_pd`, `C120_point6d_counterexample`, `C120_posture_counterexample`, `C120_progress`, `C120_relative_counterexample`, `C120_vector_counterexample`
* `Verif.Device`: `C140_acceleration`, `C140_back`, `C140_case`, `C140_constant`, `C140_distance`, `C140_nan_case`, `C140_nan_counterexample`, `C140_pose`, `C140_pose_copy_counterexample`, `C140_pose_counterexample`, `C140_pose_refused`, `C140_rest_case`, `C140_rest_counterexample`, `C140_step`, `C140_subdivision`, `C22_positions_within_bounds`, `C22_positions_within_bounds_history`, `C23_acceleration_mode`, `C23_acceleration_mode_any`, `C23_checked_step_is_clamped`, `C23_position_mode`, `C23_velocity_mode`, `C25_position_bounds`, `C25_sanity_check`, `C25_torque_bounds`, `C25_velocity_bounds`, `C26_history_partial`, `C26_step_reads_in_range`, `C64_acceleration_mode_partial`, `C64_acceleration_mode_position_counterexample`, `C64_position_mode_counterexample`, `C64_velocity_mode_counterexample`
* `Verif.Differentiator`: `C107_before_init_counterexample`, `C107_case`, `C107_filter`, `C107_history`, `C107_once`, `C107_second_init_counterexample`, `C107_sizes_counterexample`
* `Verif.Errors`: `C117_case`, `C117_code_table`, `C117_format`, `C117_format_undefined`, `C117_message_lost_counterexample`, `C117_no_arguments`, `C117_pool`, `C117_print`, `C117_print_injective`, `C117_size_error_counterexample`, `C117_truncation_counterexample`, `C117_visual_counterexample`
* `Verif.Euler`: `C34_euler_equation`, `C67_rest_first_order_partial`, `C67_second_order_counterexample`
* `Verif.Event`: `C28_never_triggers_while_false`, `C28_triggers_with_repetition`
* `Verif.Features`: `C50_error_cases`, `C50_error_reference`, `C50_resized_error_counterexample`, `C50_short_reference_counterexample`, `C51_defined`, `C51_dimension`, `C51_history`, `C51_stale_jacobian_counterexample`, `C52_derivative`, `C52_error`, `C52_jacobian_counterexample`, `C52_jacobian_partial`, `C52_jacobian_shape`, `C52_monotone`, `C52_normalised`, `C52_sizes`, `C53_derivative`, `C53_error`, `C53_jacobian`, `C53_nonneg`, `C53_short_error`, `C83_garbage_counterexample`, `C83_too_long`
* `Verif.Fir`: `C158_bounded`, `C158_case`, `C158_converges`, `C158_filters`, `C158_scalar_counterexample`, `C158_settles`, `C30_output_any`, `C30_scalar_filter_partial`, `C30_vector_filter_is_convolution`, `C31_buffer_holds_recent_samples`, `C31_reads_in_range`
* `Verif.Flags`: `C03_history`, `C04_spaces_disagree_counterexample`
* `Verif.Gain.Adaptive`: `C19_antitone`, `C19_between`, `C19_constant`, `C19_limit`, `C19_passing_point`, `C19_passing_point_between`, `C19_slope`, `C19_value_at_zero`, `C19_wrong_slope_unbounded`
* `Verif.Gain.Hyperbolic`: `C20_antitone`, `C20_constant`, `C20_limit`, `C20_mean_at_displacement`, `C20_strictly_between`, `C20_value_at_zero_not_reached`
* `Verif.Geometry`: `C55_pose_action`, `C55_twist_action`, `C55_twist_inv`, `C55_twist_mul`, `C56_end_effector_jacobian`, `C56_position`, `C56_world_jacobian`, `C57_missing_angle_ub`, `C57_rotation`, `C57_shipped_identity`, `C70_conj_inverse`, `C70_conj_not_inverse_counterexample`, `C70_mul_composes`, `C70_unit_quaternion_rotation`, `C71_pose_rpy`, `C71_pose_utheta`, `C71_rpy`, `C72_se3_roundtrip`, `C72_skew_to_vector_counterexample`, `C72_skew_to_vector_opposite`, `C81_half_turn_counterexample`, `C81_matrix_angle_axis`, `C81_matrix_quaternion`, `C81_matrix_rpy`, `C81_negative_yaw_counterexample`, `C81_pose_quaternion`, `C81_pose_rpy`, `C81_pose_utheta`, `C81_quaternion_matrix`, `C81_quaternion_rpy`, `C81_rpy_matrix`, `C81_rpy_utheta`, `C81_utheta_pose`
* `Verif.Gripper`: `C35_factor_in_unit`, `C35_factor_update`, `C35_reference_partial`, `C35_several_joints_counterexample`
* `Verif.History`: `C116_degrees`, `C116_dump`, `C116_late_counterexample`, `C116_range`, `C116_restore`, `C116_sample_counterexample`, `C116_time_counterexample`
* `Verif.Homogeneous`: `C110_apply_twice`, `C110_case`, `C110_decompose`, `C110_inverse`, `C110_inverse_matrix`, `C110_inverse_not_square`, `C110_inverse_rotation`, `C110_matrix_vector`, `C110_norm`, `C110_not_affine_counterexample`, `C110_point`, `C110_point_size_counterexample`
* `Verif.JointTraj`: `C156_coherent`, `C156_once`, `C42_plays_in_order`, `C42_short_point_counterexample`, `C42_single_trajectory`, `C42_waist_counterexample`, `C42_waist_position`
* `Verif.Kalman`: `C58_gain`, `C58_initial`, `C58_joseph_form`, `C58_state_updates_variance`, `C58_variance_psd`, `C58_variance_symmetric`, `C88_estimate`, `C88_gain_optimal`, `C88_gain_unique`, `C88_least_squares`, `C88_variance_decreases`
* `Verif.KernelMem`: `C109_full_rank`, `C109_history`, `C109_projectors`, `C109_requests`, `C109_steady`, `C109_twice_counterexample`
* `Verif.Limits`: `C37_constraint_partial`, `C37_only_tilt_reduced`, `C37_small_pan_counterexample`, `C37_unchanged_when_ok`, `C38_limited_control`, `C38_stays_inside`
* `Verif.Loader`: `C106_disciplined`, `C106_legal`, `C106_no_leak`
* `Verif.Loop`: `C124_approach`, `C124_converges`, `C124_too_fast`, `C124_unstable`, `C126_converges`, `C126_decrease`, `C126_errors`, `C126_line`, `C135_converges`, `C135_gain_entities`, `C135_stack`, `C135_stops`, `C135_stops_counterexample`, `C142_approach`, `C142_case`, `C142_converges`, `C142_once`, `C142_path`, `C143_case`, `C143_converges`, `C143_decoupled`, `C145_case`, `C145_converges`, `C145_grows_counterexample`, `C145_step`, `C145_straight`, `C145_trajectory`, `C145_twice`, `C147_any_angle`, `C147_case`, `C147_converges`, `C147_frames`, `C147_pose_feature`, `C147_step`, `C147_straight`, `C147_trajectory`, `C147_twice`, `C147_twice_case`, `C148_any_angle`, `C148_case`, `C148_converges`, `C148_gain_entities`, `C148_trajectory`, `C151_axes`, `C151_axes_case`, `C151_case`, `C151_orientation`, `C151_orientation_case`, `C151_position`, `C151_rest`, `C151_straight`, `C151_straight_case`, `C151_turns`, `C152_bound`, `C152_case`, `C152_error`, `C152_exact`, `C152_lag`, `C152_limit`, `C152_lost`, `C152_quiet`, `C153_case`, `C153_converges`, `C153_quiet`, `C153_recurrence`, `C153_unstable`, `C153_unstable_case`, `C154_approach`, `C154_case`, `C154_converges`, `C154_first`
* `Verif.Madgwick`: `C59_before_init`, `C59_not_normalised_counterexample`, `C59_null_quaternion_counterexample`, `C59_period_one_counterexample`, `C59_recovers`, `C59_refused`, `C59_step`, `C59_unit`, `C89_gradient`, `C89_gyroscope`, `C89_misalignment`, `C89_rest`, `C89_step`
* `Verif.Mailbox`: `C146_between_dates`, `C146_case`, `C29_uncontended_read`
* `Verif.MatrixSvd`: `C144_bounded`, `C144_case`, `C144_limit`, `C144_monotone`, `C144_null`, `C144_numbers`, `C144_rate`, `C144_reached`, `C144_residual`, `C144_same`, `C21_damped`, `C21_damped_minimises`, `C21_independent_of_decomposition`, `C21_penrose`, `C21_pseudo_inverse_of_truncated`, `C21_same_threshold`
* `Verif.MatrixUtil`: `C111_angles_roundtrip`, `C111_band_counterexample`, `C111_band_error`, `C111_case`, `C111_distance`, `C111_matrix_roundtrip`, `C111_order_counterexample`, `C111_orthonormal`, `C111_pose_to_matrix`, `C111_quaternion`, `C111_reflection_counterexample`, `C111_rotate`
* `Verif.Memory`: `C160_case`, `C160_constant`, `C160_converges`, `C160_ramp`, `C160_weight_counterexample`, `C33_average_is_weighted_sum`, `C33_average_stays_in_interval`, `C33_bad_weight_counterexample`, `C33_starts_from_zero_counterexample`, `C34_derivator`
* `Verif.MetaTask`: `C115_case`, `C115_exist`, `C115_exist_counterexample`, `C115_failed`, `C115_gain`, `C115_gain_counterexample`, `C115_goto6d`, `C115_gotoNd`, `C115_goto_relative`, `C115_identity_counterexample`, `C115_matrix`, `C115_modif_off`, `C115_modif_refused_counterexample`, `C115_modif_start`, `C115_modif_to`, `C115_pose`, `C115_refused`, `C115_translation`, `C115_tuple_identity`
* `Verif.MotionPeriod`: `C101_bounded`, `C101_case`, `C101_components`, `C101_constant`, `C101_cos`, `C101_defined`, `C101_empty_counterexample`, `C101_periodic`, `C101_periodic_before`, `C101_resized`, `C101_sin`, `C101_wrap_counterexample`
* `Verif.MultiBound`: `C06_cut_after_comma`, `C06_vector_round_trip_int_partial`, `C06_vector_round_trip_partial`
* `Verif.Operators`: `C48_mix`, `C48_selec`, `C48_stack`, `C48_stack_undefined`, `C49_addSignal_counterexample`, `C49_adder`, `C49_adder_stale_counterexample`, `C49_coefficients`, `C79_compare`, `C80_convolution`, `C82_column_selector`, `C82_matrix_selector`
* `Verif.ParamServer`: `C105_before`, `C105_bound`, `C105_case`, `C105_display_counterexample`, `C105_frames`, `C105_hands`, `C105_init`, `C105_init_simple_counterexample`, `C105_kept`, `C105_missing`, `C105_names`, `C105_period`, `C105_prefix_counterexample`, `C105_robots`, `C105_safe`, `C105_separator_counterexample`, `C105_set_get`, `C105_values`, `C127_accepted`, `C127_apart`, `C127_before`, `C127_convert`, `C127_force_id`, `C127_force_limits`, `C127_in_range`, `C127_joint_id`, `C127_joint_limits`, `C127_names`, `C127_never_set`, `C127_order`, `C138_before`, `C138_case`, `C138_first`, `C138_other_counterexample`, `C138_second_counterexample`, `C138_set_get`
* `Verif.Periodic`: `C27_calls_at_tick`
* `Verif.Point6d`: `C141_case`, `C141_decay`, `C141_error`, `C141_error_zero`, `C141_errordot`, `C141_jacobian`, `C141_keep`, `C141_no_ja`, `C141_screw`, `C141_selected`, `C93_error_motion`, `C93_error_zero`, `C93_frame_names`, `C93_frames`, `C93_keep`, `C93_no_reference`, `C93_rotation_bounded`, `C93_selected`, `C93_world_invariant`, `C94_decay`, `C94_norm`, `C94_rotation_counterexample`, `C94_rotation_partial`, `C94_translation`, `C95_errordot_partial`, `C95_no_reference`, `C95_norm`, `C95_tracking`, `C95_translation`, `C96_decay`, `C96_error_zero`, `C96_initSdes`, `C96_method_counterexample`, `C96_norm`, `C96_selected`, `C96_translation_counterexample`, `C96_translation_partial`, `C96_world_invariant`, `C97_decay`, `C97_error_zero`, `C97_errordot_counterexample`, `C97_errordot_partial`, `C97_jacobian`, `C97_keep`, `C97_no_ja`, `C97_pose`, `C97_se3_desired`, `C97_se3_velocity`, `C97_selected`
* `Verif.Pool`: `C45_conflict`, `C45_deleted_counterexample`, `C45_feature_for_ever`, `C45_feature_found`, `C45_task_for_ever`, `C45_task_found`, `C78_counterexample`, `C78_dot_in_directory_throws`, `C78_file_in_directory_partial`
* `Verif.Posture`: `C114_caller_counterexample`, `C114_case`, `C114_first_use_counterexample`, `C114_limbs`, `C114_posture`, `C114_returns`, `C114_second_robot_counterexample`
* `Verif.PyFeature`: `C123_default_position`, `C123_position_array_counterexample`, `C123_position_error`, `C123_position_keep`, `C123_position_reference_later`, `C123_position_signals`, `C123_relative_announced_error_counterexample`, `C123_relative_error`, `C123_relative_invariant`, `C123_relative_keep_counterexample`, `C123_relative_lost_reference_counterexample`
* `Verif.Quaternion`: `C139_back`, `C139_case`, `C139_conjugate`, `C139_fromMatrix`, `C139_fromVector_case`, `C139_fromVector_counterexample`, `C139_half_turn_case`, `C139_half_turn_counterexample`, `C139_half_turn_infinite_counterexample`, `C139_multiply`, `C139_multiply_alias_counterexample`, `C139_rotation`
* `Verif.Reach`: `C40_endpoints`, `C40_other_mode_stays`, `C40_reach`, `C40_zero_duration_undefined`
* `Verif.Reader`: `C41_load_then_read_partial`, `C41_long_line_counterexample`, `C41_matrix_row_major`, `C41_two_buffers_counterexample`
* `Verif.RobotUtils`: `C43_components`, `C43_negative_vector_entry_counterexample`, `C43_out_of_range_not_rejected`, `C43_roundtrip`, `C43_vector_mapping`, `C44_any_history`, `C44_inverse`, `C44_inverse_distinct`, `C44_stale_id_counterexample`, `C44_unknown_reported`, `C73_velocity_of_base`, `C73_velocity_roundtrip`, `C74_angles_roundtrip`, `C74_config_roundtrip`, `C74_empty_mapping_counterexample`, `C74_near_singularity_counterexample`, `C74_same_pose`, `C75_mimic_joints`, `C75_nameless_counterexample`, `C76_create_once`, `C76_registry`, `C77_force_ids`
* `Verif.Rounding`: `C129_bounds`, `C129_checked_drift`, `C129_double`, `C129_drift`, `C129_unchecked_drift`, `C130_inside`, `C130_period_counterexample`, `C130_rounded`, `C131_converges`, `C131_double`, `C132_average`, `C132_filter`, `C133_duration`, `C133_order`, `C133_stamp`, `C149_adaptive_gain`, `C149_admittance`, `C149_double`, `C149_hyperbolic_gain`, `C149_limits`, `C149_unilateral`, `C149_unilateral_double`, `C149_unilateral_run`, `C149_width_double`, `C150_default`, `C150_lost_counterexample`, `C150_moves`, `C150_quarter_counterexample`, `C150_zero`
* `Verif.Script`: `C155_case`, `C155_deleted_counterexample`, `C155_independent`, `C155_list`, `C155_script`
* `Verif.Script.Features`: `C159_case`, `C159_defined`, `C159_deleted_counterexample`, `C159_list`, `C159_script`
* `Verif.Sequencer`: `C62_due_partial`
* `Verif.Small`: `C121_binary`, `C121_flushed_once`, `C121_zone_once`
* `Verif.Sot`: `C07_down`, `C07_exist`, `C07_remove`, `C07_reorder_perm`, `C07_up`, `C08_deps_exact_partial`, `C08_deps_sound`, `C09_disturbance_bound`, `C09_not_disturbed`, `C10_feasible_is_exact`, `C10_full_row_rank_is_exact`, `C10_lexicographic_optimum`, `C10_minimum_norm`, `C10_residual_orthogonal`, `C11_empty_stack`, `C11_inside_projector`, `C11_wrong_projector_ignored`, `C11_wrong_size_throws`, `C125_compatible`, `C125_margin_regular`, `C125_same_control`, `C12_first_rejected_counterexample`, `C12_large_limit_accepts`, `C12_limited_change`, `C12_rejected_is_skipped_partial`, `C136_bounded`, `C136_change`, `C136_continuous`, `C136_jump_counterexample`, `C136_linear`, `C136_total`, `C136_unit_counterexample`, `C137_decomposition`, `C137_frame`, `C137_projector`, `C13_masked_columns`, `C63_grown_task_counterexample`, `C63_no_undefined_behaviour`
* `Verif.Spatial`: `C54_accepted`, `C54_error`, `C54_interaction`, `C54_jacobian`, `C54_rejected`, `C54_selection`, `C84_error`, `C84_jacobian`, `C84_translation`, `C85_distance_counterexample`, `C85_error`, `C85_orthogonal`, `C85_zero`, `C86_derivative`, `C86_jacobian_counterexample`, `C86_jacobian_partial`, `C87_assertions_counterexample`, `C87_projection_partial`, `C87_three_coordinates`
* `Verif.StopWatch`: `C91_clock_zero_counterexample`, `C91_pause_counterexample`, `C91_zero_lapse_counterexample`
* `Verif.Task`: `C14_concatenation_partial`, `C14_exact_once_allocated`, `C14_growth_erases_counterexample`, `C14_single_feature`, `C14_size_and_components_partial`, `C15_mismatch_throws`, `C15_mismatch_throws_fresh`, `C15_stack_fresh_partial`, `C15_stack_history`, `C15_stack_partial`, `C15_stale_columns_counterexample`, `C16_size_mismatch`, `C17_pd_history`, `C18_velocity_iff_position`
* `Verif.TaskConti`: `C100_converges`, `C100_inert_case`, `C100_inert_counterexample`, `C100_limit`, `C100_no_jacobian`, `C100_no_time`, `C100_start`, `C100_tends`, `C100_terminates`, `C100_terminates_iff`, `C100_to_be_set`
* `Verif.TaskEdit`: `C128_depends`, `C128_edits_counterexample`, `C128_features_up_to_date`, `C128_pd_counterexample`, `C128_selection_seen`, `C128_task_up_to_date`, `C128_unilateral`, `C128_unilateral_up_to_date`, `C128_values`
* `Verif.Texts`: `C119_case`, `C119_display_stack`, `C119_display_task`, `C119_features`, `C119_graph_balanced`, `C119_graph_stack`, `C119_graph_task`, `C119_list`, `C119_pool_unclosed_counterexample`, `C119_quote_counterexample`
* `Verif.ThreadLoop`: `C113_once`, `C113_quit`
* `Verif.Timing`: `C104_case`, `C104_duration`, `C104_duration_add`, `C104_milliseconds`, `C104_order`, `C104_two_stamps_counterexample`
* `Verif.TrajText`: `C98_dropped_counterexample`, `C98_read`, `C98_stamp_counterexample`, `C98_values`, `C99_appends`, `C99_ends`, `C99_hangs`, `C99_hangs_empty`, `C99_header_counterexample`, `C99_names_end`, `C99_no_names_counterexample`, `C99_no_names_hangs`, `C99_twice`
* `Verif.Variadic`: `C46_add`, `C46_any_history`, `C46_default_names`, `C46_set_number`
* `Verif.Viewer`: `C122_log`, `C122_log_others`, `C122_log_reads_back`, `C122_log_removes_counterexample`
* `Verif.Wiring`: `C134_apart_plain`, `C134_base_counterexample`, `C134_class_counterexample`, `C134_ref_counterexample`, `C134_runs`, `C134_twice_counterexample`, `C134_wired`
