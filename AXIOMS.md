# Axioms of the property theorems

Generated by `tools/audit.py` from `#print axioms`.

## none (8)

* `Kalibr.Report.C159_shutter_counterexample`
* `Kalibr.Visual.C161_one_sensor`
* `Kalibr.Reuse.C180_lost_counterexample`
* `Kalibr.Printed.C182_table`
* `Kalibr.Simple.C184_twice_counterexample`
* `Kalibr.Simple.C184_edit`
* `Kalibr.Simple.C184_difference_counterexample`
* `Kalibr.Lm.C199_counterexample`

## propext (42)

* `Kalibr.JobQueue.C07_two_workers_counterexample`
* `Kalibr.MatArchive.C10_counterexample_kind`
* `Kalibr.MatArchive.C12_counterexample`
* `Kalibr.Jacobian.C26_add_refused`
* `Kalibr.CCM.C27_clear_counterexample`
* `Kalibr.CCM.C27_fromDense_counterexample`
* `Kalibr.CCM.C27_init_counterexample`
* `Kalibr.CCM.C28_misuse`
* `Kalibr.Problem.C30_duplicate_variable`
* `Kalibr.Problem.C30_counterexample_rejected_term`
* `Kalibr.Problem.C30_counterexample_repeated_variable`
* `Kalibr.Permute.C61_wrong_length`
* `Kalibr.CCM.C75_missing_variable_counterexample`
* `Kalibr.JobQueue.C76_stop_takes_no_job`
* `Kalibr.JobQueue.C76_join_counterexample`
* `Kalibr.JobQueue.C76_destructor_counterexample`
* `Kalibr.App.C123_target_total`
* `Kalibr.App.Config.C127_imu_counterexample`
* `Kalibr.Icc.Rs.C131_config_counterexample`
* `Kalibr.Util.C167_to_stream`
* `Kalibr.Util.C167_identifier_length`
* `Kalibr.Util.C167_identifier_counterexample`
* `Kalibr.Mutex.C172_try_lock_counterexample`
* `Kalibr.Undist.C173_factory`
* `Kalibr.Thr.C175_spurious_counterexample`
* `Kalibr.Thr.C175_start_busy_counterexample`
* `Kalibr.Thr.C175_two_starts_counterexample`
* `Kalibr.LogPrint.C178_alien_counterexample`
* `Kalibr.Reuse.C180_columns_counterexample`
* `Kalibr.Reuse.C180_entries_counterexample`
* `Kalibr.Reuse.C180_pattern_counterexample`
* `Kalibr.Reuse.C180_empty_counterexample`
* `Kalibr.Reuse.C180_together`
* `Kalibr.Reuse.C180_lost_partial`
* `Kalibr.CamFactory.C190_create`
* `Kalibr.CamFactory.C190_unknown`
* `Kalibr.CamFactory.C190_distinct`
* `Kalibr.Single.C196_threads_partial`
* `Kalibr.Single.C196_counterexample`
* `Kalibr.Lm.C199_swap`
* `Kalibr.Lm.C199_set`
* `Kalibr.Kinds.C200_counterexample`

## propext, Classical.choice, Quot.sound (1000)

* `Kalibr.AslamTime.C01_add_exact`
* `Kalibr.AslamTime.C01_sub_exact`
* `Kalibr.AslamTime.C01_construct`
* `Kalibr.AslamTime.C02_compare`
* `Kalibr.AslamTime.C02_trichotomy`
* `Kalibr.AslamTime.C02_add_mono`
* `Kalibr.AslamTime.C03_counterexample`
* `Kalibr.AslamTime.C03_fromSec_counterexample`
* `Kalibr.AslamTime.C03_ctor_normal_partial`
* `Kalibr.AslamTime.C03_ctor_total`
* `Kalibr.AslamTime.C03_unique_partial`
* `Kalibr.AslamTime.C03_arith_partial`
* `Kalibr.AslamTime.C03_time_fromSec_counterexample`
* `Kalibr.AslamTime.C04_time_roundtrip`
* `Kalibr.AslamTime.C04_duration_roundtrip`
* `Kalibr.AslamTime.C04_sub_add`
* `Kalibr.AslamTime.C04_sub_range_counterexample`
* `Kalibr.Archive.C05_roundtrip_partial`
* `Kalibr.Archive.C05_predef_counterexample`
* `Kalibr.Archive.C06_width_partial`
* `Kalibr.Archive.C06_framing`
* `Kalibr.Archive.C06_sign_counterexample`
* `Kalibr.Archive.C06_sequence_partial`
* `Kalibr.JobQueue.C07_taken_in_order`
* `Kalibr.JobQueue.C07_once`
* `Kalibr.JobQueue.C07_not_lost`
* `Kalibr.JobQueue.C07_progress`
* `Kalibr.JobQueue.C07_one_worker`
* `Kalibr.JobQueue.C07_no_ub`
* `Kalibr.JobQueue.C08_wait_means_done`
* `Kalibr.JobQueue.C08_no_lost_wakeup`
* `Kalibr.MatArchive.C09_round_trip_partial`
* `Kalibr.MatArchive.C09_round_trip_empty_partial`
* `Kalibr.MatArchive.C10_counterexample_clear`
* `Kalibr.MatArchive.C10_last_value_partial`
* `Kalibr.MatArchive.C11_names_partial`
* `Kalibr.MatArchive.C12_sizes_partial`
* `Kalibr.UnionFind.C13_union_find`
* `Kalibr.UnionFind.C13_connect_returns_root`
* `Kalibr.Tag.C14_nearest`
* `Kalibr.Tag.C14_no_codes`
* `Kalibr.Tag.C15_corrects`
* `Kalibr.Tag.C16_rotation`
* `Kalibr.Corrector.C17_hull_partial`
* `Kalibr.Corrector.C17_counterexample`
* `Kalibr.Corrector.C18_not_ahead`
* `Kalibr.Corrector.C19_reads_in_range_partial`
* `Kalibr.Corrector.C19_counterexample`
* `Kalibr.Corrector.C20_backwards_rejected`
* `Kalibr.Timer.C21_refines`
* `Kalibr.Timer.C21_handles`
* `Kalibr.Timer.C21_stop_records`
* `Kalibr.Timer.C21_wrong_state_raises`
* `Kalibr.Optimizer.C22_final_cost`
* `Kalibr.Optimizer.C22_non_increasing`
* `Kalibr.Optimizer.C22_reported_cost_partial`
* `Kalibr.Optimizer.C22_counterexample`
* `Kalibr.Optimizer.C23_terminates`
* `Kalibr.Optimizer.C23_budget`
* `Kalibr.Optimizer.C24_indices_tile_partial`
* `Kalibr.Optimizer.C24_raises`
* `Kalibr.Optimizer.C24_counterexample`
* `Kalibr.Optimizer.C24_never_active`
* `Kalibr.Optimizer.C25_own_segment`
* `Kalibr.Optimizer.C25_step_defined`
* `Kalibr.Optimizer.C25_revert_partial`
* `Kalibr.Optimizer.C25_revert_all`
* `Kalibr.Optimizer.C25_counterexample`
* `Kalibr.Jacobian.C26_ordered`
* `Kalibr.Jacobian.C26_add`
* `Kalibr.Jacobian.C26_addBlock`
* `Kalibr.Jacobian.C26_chain`
* `Kalibr.Jacobian.C26_dense`
* `Kalibr.CCM.C27_new`
* `Kalibr.CCM.C27_history`
* `Kalibr.CCM.C27_appendJacobians`
* `Kalibr.CCM.C27_value`
* `Kalibr.CCM.C27_products`
* `Kalibr.CCM.C27_fromDense`
* `Kalibr.CCM.C28_push_updates_pop`
* `Kalibr.CCM.C28_push`
* `Kalibr.Threads.C29_split`
* `Kalibr.Threads.C29_defined`
* `Kalibr.Threads.C29_result`
* `Kalibr.Threads.C29_each_once`
* `Kalibr.Threads.C29_no_ub`
* `Kalibr.Problem.C30_bookkeeping_partial`
* `Kalibr.Problem.C30_remove_variable_defined`
* `Kalibr.Robust.C31_none`
* `Kalibr.Robust.C31_cauchy`
* `Kalibr.Robust.C31_huber`
* `Kalibr.Robust.C31_gemanMcClure_partial`
* `Kalibr.Robust.C31_gemanMcClure_valid_iff`
* `Kalibr.Robust.C31_gemanMcClure_counterexample`
* `Kalibr.Robust.C31_blakeZisserman_partial`
* `Kalibr.Robust.C31_blakeZisserman_counterexample`
* `Kalibr.TrustRegion.C32_dogleg_in_region_partial`
* `Kalibr.TrustRegion.C32_dogleg_on_path_partial`
* `Kalibr.TrustRegion.C32_dogleg_counterexample`
* `Kalibr.TrustRegion.C32_damping_positive`
* `Kalibr.Sparse.C33_toDense`
* `Kalibr.Sparse.C33_at`
* `Kalibr.Sparse.C33_writeBlock`
* `Kalibr.Sparse.C33_transpose`
* `Kalibr.Sparse.C33_transposeInto_partial`
* `Kalibr.Sparse.C33_transposeInto_counterexample`
* `Kalibr.Sparse.C33_transposeInto_refused`
* `Kalibr.Sparse.C33_add`
* `Kalibr.Sparse.C33_mulVec`
* `Kalibr.Sparse.C33_rightMulVec`
* `Kalibr.Sparse.C33_mul`
* `Kalibr.Sparse.C33_multiplyInto`
* `Kalibr.Sparse.C33_multiplyInto_counterexample`
* `Kalibr.Sparse.C33_slice`
* `Kalibr.Sparse.C34_fillCCS`
* `Kalibr.Sparse.C34_fillCCS_upper_partial`
* `Kalibr.Sparse.C34_fillCCS_upper_counterexample`
* `Kalibr.Sparse.C34_fillUpperTriangleCCS`
* `Kalibr.Sparse.C34_blockStructure`
* `Kalibr.Batch.C35_ordering`
* `Kalibr.Batch.C35_group`
* `Kalibr.Batch.C35_flat_index`
* `Kalibr.Batch.C35_set_ordering`
* `Kalibr.Batch.C35_error_terms`
* `Kalibr.Batch.C35_permute`
* `Kalibr.Batch.C35_permute_missing`
* `Kalibr.Batch.C35_permute_terms`
* `Kalibr.Batch.C35_save_restore`
* `Kalibr.Merged.C36_variables`
* `Kalibr.Merged.C36_flat_index`
* `Kalibr.Merged.C36_ordering`
* `Kalibr.Merged.C36_lookup`
* `Kalibr.Merged.C36_permute`
* `Kalibr.Merged.C36_permute_problems`
* `Kalibr.Merged.C36_errors`
* `Kalibr.Merged.C36_add`
* `Kalibr.Merged.C36_remove`
* `Kalibr.Merged.C36_set_ordering`
* `Kalibr.Estimator.C38_rejected`
* `Kalibr.Estimator.C38_accepted`
* `Kalibr.Estimator.C38_decision`
* `Kalibr.Estimator.C39_order`
* `Kalibr.Estimator.C39_after_solve`
* `Kalibr.Grid.C40_linear_index_bijection`
* `Kalibr.Grid.C40_stepping_visits_all`
* `Kalibr.Grid.C40_constructor`
* `Kalibr.Grid.C40_point_in_cell`
* `Kalibr.Grid.C40_cells_independent`
* `Kalibr.Grid.C40_too_large_raises`
* `Kalibr.Grid.C40_reset`
* `Kalibr.Grid.C40_negative_index_counterexample`
* `Kalibr.Grid.C40_centre_partial`
* `Kalibr.Grid.C40_centre_counterexample`
* `Kalibr.Grid.C40_integral_point_in_cell`
* `Kalibr.Grid.C40_integral_centre_counterexample`
* `Kalibr.BSpline.C41_weights_partial`
* `Kalibr.BSpline.C41_derivative_weights_partial`
* `Kalibr.BSpline.C41_constant_partial`
* `Kalibr.BSpline.C41_counterexample`
* `Kalibr.BSpline.C42_eval_partial`
* `Kalibr.BSpline.C42_eval_end_partial`
* `Kalibr.BSpline.C42_counterexample`
* `Kalibr.BSpline.C43_valid_interval`
* `Kalibr.BSpline.C43_in_range`
* `Kalibr.BSpline.C43_bracket_partial`
* `Kalibr.BSpline.C43_counterexample`
* `Kalibr.BSpline.C44_same_length_partial`
* `Kalibr.BSpline.C44_counts_partial`
* `Kalibr.BSpline.C44_counterexample`
* `Kalibr.BSpline.C45_uniform_partial`
* `Kalibr.BSpline.C45_counterexample`
* `Kalibr.BSpline.C46_integral_antisymm`
* `Kalibr.BSpline.C46_integral_additive`
* `Kalibr.BSpline.C46_derivative_partial`
* `Kalibr.BSpline.C46_iterated_derivative_partial`
* `Kalibr.BSpline.C46_integral_exact_partial`
* `Kalibr.BSpline.C46_integral_error_partial`
* `Kalibr.BSpline.C46_counterexample`
* `Kalibr.BSpline.C47_counts`
* `Kalibr.Kin.C48_product_is_quaternion_product`
* `Kalibr.Kin.C48_matrix_of_product`
* `Kalibr.Kin.C48_rotate_is_matrix`
* `Kalibr.Kin.C48_inverse_is_transpose`
* `Kalibr.Kin.C48_inverse`
* `Kalibr.Kin.C48_monoid`
* `Kalibr.Kin.C48_unit_closed`
* `Kalibr.Kin.C48_unit_gives_rotation`
* `Kalibr.Kin.C48_double_cover`
* `Kalibr.Kin.C48_multiplication_matrices`
* `Kalibr.Kin.C49_round_trip`
* `Kalibr.Kin.C49_quaternion_recovered`
* `Kalibr.Kin.C50_constructor_normalises`
* `Kalibr.Kin.C50_closed`
* `Kalibr.Kin.C50_matrix_of_product`
* `Kalibr.Kin.C50_matrix_of_identity`
* `Kalibr.Kin.C50_matrix_of_inverse`
* `Kalibr.Kin.C50_group_laws`
* `Kalibr.Kin.C50_action_is_matrix`
* `Kalibr.Kin.C50_action`
* `Kalibr.Kin.C50_isometry`
* `Kalibr.Kin.C50_from_matrix`
* `Kalibr.Kin.C50_matrices`
* `Kalibr.Kin.C51_matrix_is_rotation`
* `Kalibr.Kin.C51_vector_round_trip_partial`
* `Kalibr.Kin.C51_free_functions_round_trip_partial`
* `Kalibr.Kin.C51_half_turn_counterexample`
* `Kalibr.Kin.C51_matrix_round_trip_partial`
* `Kalibr.Kin.C52_ypr_rates`
* `Kalibr.Kin.C52_zyx_rates`
* `Kalibr.Kin.C52_zxy_rates`
* `Kalibr.Kin.C52_ypr_jacobian`
* `Kalibr.Kin.C52_zyx_jacobian`
* `Kalibr.Kin.C52_zxy_jacobian`
* `Kalibr.Kin.C52_rodrigues_rates`
* `Kalibr.Kin.C52_rodrigues_jacobian`
* `Kalibr.Kin.C52_rotation_vector_rates_partial`
* `Kalibr.Kin.C52_rotation_vector_jacobian_partial`
* `Kalibr.Kin.C53_rotation_partial`
* `Kalibr.Kin.C53_angles_add_partial`
* `Kalibr.Kin.C53_below_threshold`
* `Kalibr.Kin.C53_negative_angles_counterexample`
* `Kalibr.Camera.C54_ray`
* `Kalibr.Camera.C54_keypoint`
* `Kalibr.Camera.C54_no_distortion`
* `Kalibr.Camera.C54_fov`
* `Kalibr.Camera.C54_equidistant_counterexample`
* `Kalibr.Camera.C55_radtan_point`
* `Kalibr.Camera.C55_radtan_parameters`
* `Kalibr.Camera.C55_equidistant_point_partial`
* `Kalibr.Camera.C55_equidistant_parameters_partial`
* `Kalibr.Camera.C55_equidistant_centre_counterexample`
* `Kalibr.Camera.C55_fov_point_partial`
* `Kalibr.Camera.C55_ds_point`
* `Kalibr.Camera.C55_ds_intrinsics`
* `Kalibr.Camera.C55_ds_ray`
* `Kalibr.Camera.C55_eucm_point`
* `Kalibr.Camera.C55_eucm_intrinsics_partial`
* `Kalibr.Camera.C55_eucm_intrinsics_counterexample`
* `Kalibr.Camera.C55_eucm_ray`
* `Kalibr.Camera.C55_fov_parameters_partial`
* `Kalibr.Camera.C55_fov_parameters_counterexample`
* `Kalibr.Camera.C55_omni_point`
* `Kalibr.Camera.C55_omni_intrinsics`
* `Kalibr.Camera.C55_omni_distortion`
* `Kalibr.Camera.C55_omni_ray`
* `Kalibr.Camera.C55_omni_homogeneous`
* `Kalibr.Camera.C55_pinhole_homogeneous`
* `Kalibr.Camera.C55_pinhole_point`
* `Kalibr.Camera.C55_pinhole_intrinsics`
* `Kalibr.Camera.C55_pinhole_distortion`
* `Kalibr.Camera.C55_pinhole_ray_partial`
* `Kalibr.Camera.C55_pinhole_ray_counterexample`
* `Kalibr.Camera.C55_fov_parameter_partial`
* `Kalibr.Camera.C55_fov_parameter_counterexample`
* `Kalibr.Camera.C56_ds_partial`
* `Kalibr.Camera.C56_eucm_partial`
* `Kalibr.Camera.C56_omni_partial`
* `Kalibr.Camera.C56_pinhole_partial`
* `Kalibr.Camera.C56_infinity_counterexample`
* `Kalibr.Camera.C56_pinhole_jacobian_counterexample`
* `Kalibr.Camera.C56_pinhole_jacobian_partial`
* `Kalibr.Camera.C57_ray`
* `Kalibr.Camera.C57_keypoint`
* `Kalibr.Camera.C57_no_distortion`
* `Kalibr.Target.C58_index`
* `Kalibr.Target.C58_grid_point`
* `Kalibr.Target.C58_coordinates_partial`
* `Kalibr.Target.C58_coordinates_counterexample`
* `Kalibr.Target.C58_pointer_counterexample`
* `Kalibr.Target.C58_pointer_invalid_counterexample`
* `Kalibr.Target.C58_container_counterexample`
* `Kalibr.Target.C59_lists`
* `Kalibr.Target.C59_image_point`
* `Kalibr.Target.C59_reprojection`
* `Kalibr.Camera.C60_radtan_partial`
* `Kalibr.Camera.C60_radtan_centre`
* `Kalibr.Camera.C60_radtan_counterexample`
* `Kalibr.Camera.C60_equidistant_partial`
* `Kalibr.Camera.C60_equidistant_centre_counterexample`
* `Kalibr.Camera.C60_fov_centre`
* `Kalibr.Permute.C61_permutation_partial`
* `Kalibr.Permute.C61_out_of_range`
* `Kalibr.Permute.C61_counterexample`
* `Kalibr.Merged.C62_save_restore_partial`
* `Kalibr.Merged.C62_counterexample`
* `Kalibr.Estimator.C63_counterexample`
* `Kalibr.Estimator.C63_failed_call_partial`
* `Kalibr.MatArchive.C65_bad_start_partial`
* `Kalibr.Tag.C66_distance_partial`
* `Kalibr.Tag.C66_counterexample`
* `Kalibr.Tag.C67_target_tags`
* `Kalibr.Optimizer.C68_counterexample`
* `Kalibr.Optimizer.C69_counterexample`
* `Kalibr.Threads.C70_reported_partial`
* `Kalibr.Threads.C70_counterexample`
* `Kalibr.Normal.C71_evaluateHessian`
* `Kalibr.Normal.C71_buildSystem`
* `Kalibr.Normal.C71_initMatrix`
* `Kalibr.Sparse.C72_symmPermutation`
* `Kalibr.Sparse.C72_symmPermutation_upper`
* `Kalibr.Normal.C73_solve_damped`
* `Kalibr.Normal.C73_solve_leaves`
* `Kalibr.Normal.C73_solve_restores_partial`
* `Kalibr.Normal.C73_solve_counterexample`
* `Kalibr.Normal.C74_rhsJtJrhs_stored`
* `Kalibr.Normal.C74_rhsJtJrhs_partial`
* `Kalibr.Normal.C74_rhsJtJrhs_counterexample`
* `Kalibr.CCM.C75_builder_partial`
* `Kalibr.JobQueue.C76_joined_partial`
* `Kalibr.JobQueue.C76_destructor_partial`
* `Kalibr.JobQueue.C76_destructor_progress`
* `Kalibr.Robust.C77_cost_is_squared_weighted_error`
* `Kalibr.Robust.C77_cost_monotone_partial`
* `Kalibr.Robust.C77_gemanMcClure_counterexample`
* `Kalibr.Robust.C77_blakeZisserman_counterexample`
* `Kalibr.TrustRegion.C78_remembered_costs`
* `Kalibr.TrustRegion.C78_dogleg_partial`
* `Kalibr.TrustRegion.C78_dogleg_counterexample`
* `Kalibr.TrustRegion.C78_damping_grows`
* `Kalibr.TrustRegion.C79_dogleg_partial`
* `Kalibr.TrustRegion.C79_lm_partial`
* `Kalibr.TrustRegion.C79_lm_counterexample`
* `Kalibr.Kin.C80_update_is_product`
* `Kalibr.Kin.C80_update_partial`
* `Kalibr.Kin.C80_transformation_increment_partial`
* `Kalibr.Kin.C80_reaches_partial`
* `Kalibr.Kin.C81_exponential_partial`
* `Kalibr.Kin.C81_small_angle_counterexample`
* `Kalibr.Kin.C81_vector_round_trip_partial`
* `Kalibr.Kin.C81_quaternion_round_trip_partial`
* `Kalibr.Kin.C81_logarithm_counterexample`
* `Kalibr.Kin.C82_ypr_angles`
* `Kalibr.Kin.C82_zyx_angles`
* `Kalibr.Kin.C82_zxy_angles`
* `Kalibr.Kin.C82_rph_angles`
* `Kalibr.Kin.C82_ypr_matrix`
* `Kalibr.Kin.C82_zyx_matrix`
* `Kalibr.Kin.C82_rph_matrix`
* `Kalibr.Kin.C82_zxy_matrix`
* `Kalibr.Kin.C82_rotations`
* `Kalibr.Kin.C82_gimbal_lock_counterexample`
* `Kalibr.Kin.C83_quaternion_rates`
* `Kalibr.Kin.C83_quaternion_inverse`
* `Kalibr.Kin.C83_rotation_vector_inverse_partial`
* `Kalibr.Kin.C84_slerp_partial`
* `Kalibr.Kin.C84_interpolation_partial`
* `Kalibr.Kin.C85_rodrigues_rotation`
* `Kalibr.Kin.C85_rodrigues_parameters_partial`
* `Kalibr.Kin.C85_half_turn_counterexample`
* `Kalibr.Camera.C86_ray`
* `Kalibr.Camera.C86_keypoint`
* `Kalibr.Camera.C87_ray_partial`
* `Kalibr.Camera.C87_keypoint_partial`
* `Kalibr.Camera.C87_ray_counterexample`
* `Kalibr.Camera.C87_keypoint_counterexample`
* `Kalibr.Target.C88_checkerboard`
* `Kalibr.Target.C88_circlegrid`
* `Kalibr.Target.C88_aprilgrid`
* `Kalibr.Target.C88_checkerboard_distinct`
* `Kalibr.Target.C88_circlegrid_distinct`
* `Kalibr.Target.C88_aprilgrid_distinct`
* `Kalibr.Target.C88_axes_counterexample`
* `Kalibr.Target.C89_extraction_partial`
* `Kalibr.Target.C89_stale_flags_counterexample`
* `Kalibr.Target.C90_filter`
* `Kalibr.Target.C90_some_remain`
* `Kalibr.Target.C90_share`
* `Kalibr.Target.C91_find_partial`
* `Kalibr.Target.C91_stale_pose_counterexample`
* `Kalibr.Camera.C92_radtan_partial`
* `Kalibr.Camera.C92_radtan_weak`
* `Kalibr.Camera.C92_radtan_strong`
* `Kalibr.Camera.C92_equidistant_partial`
* `Kalibr.Camera.C92_equidistant_weak`
* `Kalibr.Exp.C93_container`
* `Kalibr.Exp.C93_error_term`
* `Kalibr.Exp.C93_jacobian`
* `Kalibr.Exp.C93_value`
* `Kalibr.Exp.C93_stale_counterexample`
* `Kalibr.Exp.C93_rotation_parameters`
* `Kalibr.Exp.C94_sufficient`
* `Kalibr.Exp.C94_complete`
* `Kalibr.Exp.C95_revert`
* `Kalibr.Exp.C95_set_counterexample`
* `Kalibr.Exp.C95_matrix_cells`
* `Kalibr.Exp.C96_linear`
* `Kalibr.Exp.C96_quaternion_partial`
* `Kalibr.Exp.C96_mapped_counterexample`
* `Kalibr.Exp.C97_point`
* `Kalibr.Exp.C97_transformation_partial`
* `Kalibr.Exp.C97_zero`
* `Kalibr.Exp.C97_dead_zone_counterexample`
* `Kalibr.Pose.C98_pose`
* `Kalibr.Pose.C98_body_frame`
* `Kalibr.Pose.C98_linear_rates`
* `Kalibr.Pose.C98_angular_rates`
* `Kalibr.Pose.C98_angular_acceleration_partial`
* `Kalibr.Pose.C98_acceleration_counterexample`
* `Kalibr.Pose.C98_pose_round_trip_partial`
* `Kalibr.Pose.C99_curve`
* `Kalibr.Pose.C99_transformation`
* `Kalibr.Pose.C99_inverse_transformation`
* `Kalibr.Pose.C99_orientation`
* `Kalibr.Pose.C99_inverse_orientation`
* `Kalibr.Pose.C99_transform_vector`
* `Kalibr.Pose.C99_linear_acceleration`
* `Kalibr.Pose.C99_angular_velocity_body_frame`
* `Kalibr.Pose.C99_angular_acceleration_body_frame`
* `Kalibr.Pose.C99_world_rate_partial`
* `Kalibr.Pose.C99_counterexample`
* `Kalibr.Pose.C100_transformation`
* `Kalibr.Pose.C100_orientation`
* `Kalibr.Pose.C100_position_velocity_acceleration`
* `Kalibr.Pose.C100_body_rates`
* `Kalibr.Pose.C100_acceleration_body_frame_partial`
* `Kalibr.Pose.C100_time_offset_coverage_partial`
* `Kalibr.Pose.C100_time_offset_margins_partial`
* `Kalibr.Pose.C100_time_offset_partial`
* `Kalibr.Pose.C100_time_offset_plain_partial`
* `Kalibr.Pose.C100_time_offset_plain_reads_outside`
* `Kalibr.Pose.C100_time_offset_counterexample`
* `Kalibr.Pose.C100_acceleration_body_frame_counterexample`
* `Kalibr.Motion.C101_sparse`
* `Kalibr.Motion.C101_rejects`
* `Kalibr.Motion.C101_diag`
* `Kalibr.Motion.C101_integral`
* `Kalibr.Motion.C101_accepts`
* `Kalibr.Motion.C102_value`
* `Kalibr.Motion.C102_normal_equations_partial`
* `Kalibr.Motion.C102_rhs`
* `Kalibr.Motion.C102_numbering_counterexample`
* `Kalibr.Motion.C103_actual`
* `Kalibr.Motion.C103_at_creation_partial`
* `Kalibr.Motion.C103_after_updates`
* `Kalibr.Motion.C103_jacobian`
* `Kalibr.Motion.C103_factor`
* `Kalibr.Motion.C103_counterexample`
* `Kalibr.Imu.C105_accelerometer_counterexample`
* `Kalibr.Imu.C105_cpp_jacobian`
* `Kalibr.Imu.C105_cpp_value`
* `Kalibr.Imu.C105_eccentric_counterexample`
* `Kalibr.Imu.C105_times`
* `Kalibr.Imu.C105_variables`
* `Kalibr.Imu.C105_models`
* `Kalibr.Imu.C105_eccentric_value`
* `Kalibr.Imu.C105_gyroscope`
* `Kalibr.Imu.C105_accelerometer_partial`
* `Kalibr.Imu.C105_reference_accelerometer`
* `Kalibr.Imu.C105_jacobian`
* `Kalibr.Imu.C105_addresses`
* `Kalibr.Imu.C105_value`
* `Kalibr.Reproj.C106_pinhole`
* `Kalibr.Reproj.C106_omni`
* `Kalibr.Reproj.C106_eucm_partial`
* `Kalibr.Reproj.C106_ds`
* `Kalibr.Reproj.C106_value`
* `Kalibr.Reproj.C106_jacobian`
* `Kalibr.Reproj.C106_simple`
* `Kalibr.Reproj.C106_zero_update`
* `Kalibr.Reproj.C106_update_measurement`
* `Kalibr.Reproj.C106_unprojectable_counterexample`
* `Kalibr.Geometry.C107_temporal`
* `Kalibr.Geometry.C107_lawful`
* `Kalibr.Geometry.C107_parameters_get`
* `Kalibr.Geometry.C107_parameters_set`
* `Kalibr.Geometry.C107_parameters_identity`
* `Kalibr.Geometry.C107_parameters_copy`
* `Kalibr.Geometry.C107_fov_update_counterexample`
* `Kalibr.Geometry.C107_fov_update`
* `Kalibr.Geometry.C107_update_reads`
* `Kalibr.Geometry.C107_jacobian`
* `Kalibr.Geometry.C107_steady`
* `Kalibr.Geometry.C107_euclidean_partial`
* `Kalibr.Geometry.C107_euclidean_counterexample`
* `Kalibr.KeyTime.C108_time`
* `Kalibr.KeyTime.C108_exact`
* `Kalibr.KeyTime.C108_frame`
* `Kalibr.KeyTime.C108_monotone`
* `Kalibr.KeyTime.C108_global`
* `Kalibr.KeyTime.C108_expression`
* `Kalibr.KeyTime.C108_jacobian_partial`
* `Kalibr.KeyTime.C108_jacobian_counterexample`
* `Kalibr.KeyTime.C108_global_jacobian_counterexample`
* `Kalibr.KeyTime.C108_offset_partial`
* `Kalibr.Fit.C109_constant_partial`
* `Kalibr.Fit.C109_rejects`
* `Kalibr.Fit.C109_counterexample`
* `Kalibr.Fit.C110_set`
* `Kalibr.Fit.C110_get`
* `Kalibr.Fit.C110_local`
* `Kalibr.Fit.C110_phi`
* `Kalibr.Fit.C110_set_local`
* `Kalibr.Fit.C110_segment`
* `Kalibr.Fit.C111_determined`
* `Kalibr.Fit.C111_complete`
* `Kalibr.Fit.C111_repeated_counterexample`
* `Kalibr.Fit.C112_line_partial`
* `Kalibr.Fit.C112_rejects`
* `Kalibr.Fit.C113_extend_partial`
* `Kalibr.Fit.C113_rejects`
* `Kalibr.Fit.C113_counterexample`
* `Kalibr.Fit.C113_second_partial`
* `Kalibr.Fit.C113_second_rejects`
* `Kalibr.Fit.C113_second_counterexample`
* `Kalibr.Fit.C114_dense_partial`
* `Kalibr.Fit.C114_sparse_partial`
* `Kalibr.Fit.C114_knots_partial`
* `Kalibr.Fit.C114_exact`
* `Kalibr.Fit.C114_rejects`
* `Kalibr.Fit.C114_points_partial`
* `Kalibr.Fit.C114_points_rejects`
* `Kalibr.Cov.C115_optimizer_partial`
* `Kalibr.Cov.C115_diagonal_partial`
* `Kalibr.Cov.C115_all_partial`
* `Kalibr.Cov.C115_blocks_partial`
* `Kalibr.Cov.C115_sparse_partial`
* `Kalibr.Cov.C115_counterexample`
* `Kalibr.Marg.C116_jacobian`
* `Kalibr.Marg.C116_prior_partial`
* `Kalibr.Marg.C116_top`
* `Kalibr.Marg.C116_duplicates`
* `Kalibr.Marg.C116_underdetermined`
* `Kalibr.Marg.C116_nothing_left`
* `Kalibr.Marg.C116_covariance_partial`
* `Kalibr.Marg.C116_covariance_counterexample`
* `Kalibr.Marg.C116_indices_counterexample`
* `Kalibr.Marg.C116_rank_counterexample`
* `Kalibr.Marg.C116_unlisted_counterexample`
* `Kalibr.Lin.C117_null_space`
* `Kalibr.Lin.C117_refused`
* `Kalibr.Lin.C117_rank`
* `Kalibr.Lin.C117_solve_partial`
* `Kalibr.Lin.C117_square_counterexample`
* `Kalibr.Lin.C117_information_partial`
* `Kalibr.Lin.C117_solve_counterexample`
* `Kalibr.Lin.C117_information_counterexample`
* `Kalibr.Lin.C117_rank_counterexample`
* `Kalibr.Lin.C118_information_partial`
* `Kalibr.Lin.C118_covariance_partial`
* `Kalibr.Lin.C118_dependent_counterexample`
* `Kalibr.App.C119_all`
* `Kalibr.App.C119_window_partial`
* `Kalibr.App.C119_rejected`
* `Kalibr.App.C119_window_counterexample`
* `Kalibr.App.C120_schedule_partial`
* `Kalibr.App.C120_subset`
* `Kalibr.App.C120_ends`
* `Kalibr.App.C121_views`
* `Kalibr.App.C121_once`
* `Kalibr.App.C121_cameras`
* `Kalibr.App.C121_pairs`
* `Kalibr.App.C121_camera`
* `Kalibr.App.C121_groups`
* `Kalibr.App.C121_order_counterexample`
* `Kalibr.App.C122_edges`
* `Kalibr.App.C122_mutual`
* `Kalibr.App.C122_graph`
* `Kalibr.App.C122_built`
* `Kalibr.App.C122_unseen_counterexample`
* `Kalibr.App.C123_baselines`
* `Kalibr.App.C124_terms`
* `Kalibr.App.C124_statistics_partial`
* `Kalibr.App.Filter.C125_views`
* `Kalibr.App.Filter.C125_removed`
* `Kalibr.App.Filter.C125_pass`
* `Kalibr.App.Filter.C125_few_partial`
* `Kalibr.App.Filter.C125_mean_counterexample`
* `Kalibr.App.Filter.C125_restart_counterexample`
* `Kalibr.App.C125_removed`
* `Kalibr.App.Knots.C126_errors`
* `Kalibr.App.Knots.C126_boundary_counterexample`
* `Kalibr.App.Knots.C126_sequence`
* `Kalibr.App.Knots.C126_split_partial`
* `Kalibr.App.Knots.C126_dropped_counterexample`
* `Kalibr.App.Knots.C126_shared_counterexample`
* `Kalibr.App.Knots.C126_lookup_counterexample`
* `Kalibr.App.Knots.C126_end_counterexample`
* `Kalibr.App.Config.C127_intrinsics`
* `Kalibr.App.Config.C127_set_get`
* `Kalibr.App.Config.C127_roundtrip`
* `Kalibr.App.Config.C127_written_partial`
* `Kalibr.App.Config.C127_camera_partial`
* `Kalibr.App.Config.C127_target`
* `Kalibr.Icc.C128_camera_partial`
* `Kalibr.Icc.C128_pair_partial`
* `Kalibr.Icc.C128_no_overlap`
* `Kalibr.Icc.C128_border_counterexample`
* `Kalibr.Icc.C128_pause_counterexample`
* `Kalibr.Icc.C129_rotations`
* `Kalibr.Icc.C129_nearest`
* `Kalibr.Icc.C129_axis_partial`
* `Kalibr.Icc.C129_turns_counterexample`
* `Kalibr.Icc.C129_zero_counterexample`
* `Kalibr.Icc.C130_trafo`
* `Kalibr.Icc.C130_time`
* `Kalibr.Icc.C130_baseline`
* `Kalibr.Icc.C130_saved`
* `Kalibr.Icc.C130_stale_counterexample`
* `Kalibr.Icc.C130_pose_partial`
* `Kalibr.Icc.C130_pose_counterexample`
* `Kalibr.Icc.Rs.C131_more_counterexample`
* `Kalibr.Icc.Rs.C131_guess`
* `Kalibr.Icc.Rs.C131_delay`
* `Kalibr.Icc.Rs.C131_variance_counterexample`
* `Kalibr.Icc.Rs.C131_config_partial`
* `Kalibr.Icc.Frames.C132_used`
* `Kalibr.Icc.Frames.C132_first_camera`
* `Kalibr.Icc.Frames.C132_padding_counterexample`
* `Kalibr.Icc.Frames.C132_printed_counterexample`
* `Kalibr.Icc.Frames.C132_printed_iff`
* `Kalibr.Print.C133_drawn`
* `Kalibr.Print.C133_reading_partial`
* `Kalibr.Print.C133_printed_corners`
* `Kalibr.Print.C133_observation_partial`
* `Kalibr.Print.C133_perspective_counterexample`
* `Kalibr.Print.C134_boxes`
* `Kalibr.Print.C134_corners`
* `Kalibr.Print.C134_half_turn`
* `Kalibr.Print.C134_usage_counterexample`
* `Kalibr.Print.C134_shape`
* `Kalibr.Quads.C135_loops`
* `Kalibr.Quads.C135_once`
* `Kalibr.Quads.C135_equal_counterexample`
* `Kalibr.Quads.C136_accepted`
* `Kalibr.Quads.C136_sentinel_counterexample`
* `Kalibr.Quads.C136_winding`
* `Kalibr.Quads.C136_shapes`
* `Kalibr.Quads.C137_find`
* `Kalibr.Quads.C137_outside`
* `Kalibr.Quads.C137_successors`
* `Kalibr.Quads.C137_tests`
* `Kalibr.Quads.C137_accepts`
* `Kalibr.Quads.C138_reported`
* `Kalibr.Quads.C138_once_partial`
* `Kalibr.Quads.C138_counterexample`
* `Kalibr.Quads.C139_fit`
* `Kalibr.Quads.C139_segment`
* `Kalibr.Quads.C139_direction`
* `Kalibr.Pixels.C140_smooth_partial`
* `Kalibr.Pixels.C140_first_columns`
* `Kalibr.Pixels.C140_counterexample`
* `Kalibr.Pixels.C140_range`
* `Kalibr.Pixels.C140_kernel`
* `Kalibr.Pixels.C141_edges`
* `Kalibr.Pixels.C141_groups`
* `Kalibr.Pixels.C141_border`
* `Kalibr.Pixels.C141_alone`
* `Kalibr.Pixels.C141_bound`
* `Kalibr.Pcg.C142_absolute_counterexample`
* `Kalibr.Pcg.C142_stale_counterexample`
* `Kalibr.Pcg.C142_accuracy_partial`
* `Kalibr.Pcg.C142_exact`
* `Kalibr.Pcg.C142_descent`
* `Kalibr.Pcg.C142_reuse`
* `Kalibr.Init.C143_intrinsics`
* `Kalibr.Init.C143_batch_terms`
* `Kalibr.Init.C143_batch_exact`
* `Kalibr.Init.C143_stereo_variables`
* `Kalibr.Init.C143_intrinsics_variables`
* `Kalibr.Init.C143_batch_variables`
* `Kalibr.Init.C143_half_turn_counterexample`
* `Kalibr.Init.C143_median`
* `Kalibr.Init.C143_baseline_partial`
* `Kalibr.Init.C143_stereo_terms`
* `Kalibr.Init.C143_stereo_exact_partial`
* `Kalibr.Init.C143_stereo_result`
* `Kalibr.Init.C143_stereo_total`
* `Kalibr.Solvers.C144_undamped_counterexample`
* `Kalibr.Solvers.C144_stale_error_counterexample`
* `Kalibr.Solvers.C144_null_counterexample`
* `Kalibr.Solvers.C144_sparse_cholesky`
* `Kalibr.Solvers.C144_sparse_qr_partial`
* `Kalibr.Solvers.C144_dense_qr_partial`
* `Kalibr.Solvers.C144_dense_counterexample`
* `Kalibr.Unc.C145_point_arithmetic`
* `Kalibr.Unc.C145_point_sum`
* `Kalibr.Unc.C145_point_difference_partial`
* `Kalibr.Unc.C145_certain_point_partial`
* `Kalibr.Unc.C145_point_difference_counterexample`
* `Kalibr.Unc.C145_certain_point_counterexample`
* `Kalibr.Unc.C145_euclidean`
* `Kalibr.Unc.C145_point_jacobians`
* `Kalibr.Unc.C145_point_oplus`
* `Kalibr.Unc.C145_product`
* `Kalibr.Unc.C145_inverse`
* `Kalibr.Unc.C145_certain_product`
* `Kalibr.Unc.C145_action`
* `Kalibr.Unc.C145_group_laws`
* `Kalibr.Unc.C145_oplus`
* `Kalibr.Unc.C145_normalize`
* `Kalibr.Unc.C145_vectors`
* `Kalibr.Unc.C145_numbers`
* `Kalibr.Unc.C145_rotate`
* `Kalibr.Unc.C145_semidefinite`
* `Kalibr.Stats.C146_covariance`
* `Kalibr.Stats.C146_vector_density`
* `Kalibr.Stats.C146_vector_divergence`
* `Kalibr.Stats.C146_singular_counterexample`
* `Kalibr.Stats.C146_refused_counterexample`
* `Kalibr.Stats.C146_members`
* `Kalibr.Stats.C146_density`
* `Kalibr.Stats.C146_cumulative`
* `Kalibr.Stats.C146_divergence`
* `Kalibr.Stats.C147_most_likely`
* `Kalibr.Stats.C147_grouping`
* `Kalibr.Stats.C147_zero_weights_counterexample`
* `Kalibr.Stats.C147_vector_partial`
* `Kalibr.Stats.C147_vector_counterexample`
* `Kalibr.Stats.C148_density`
* `Kalibr.Stats.C148_mean_counterexample`
* `Kalibr.Stats.C148_samples`
* `Kalibr.Stats.C148_integers`
* `Kalibr.Stats.C148_integer_counterexample`
* `Kalibr.Stats.C148_integer_samples`
* `Kalibr.Stats.C148_integer_samples_counterexample`
* `Kalibr.Stats.C148_vector_partial`
* `Kalibr.Stats.C148_vector_counterexample`
* `Kalibr.Stats.C149_functions`
* `Kalibr.Stats.C149_density`
* `Kalibr.Stats.C149_mode`
* `Kalibr.Stats.C149_cumulative`
* `Kalibr.Stats.C149_divergence_partial`
* `Kalibr.Stats.C149_divergence_counterexample`
* `Kalibr.Stats.C149_chi_square`
* `Kalibr.Stats.C150_exponential`
* `Kalibr.Stats.C150_geometric`
* `Kalibr.Stats.C150_poisson`
* `Kalibr.Stats.C150_categorical_range`
* `Kalibr.Stats.C150_categorical`
* `Kalibr.Stats.C150_categorical_counterexample`
* `Kalibr.Histogram.C151_mean`
* `Kalibr.Histogram.C151_variance`
* `Kalibr.Histogram.C151_mode`
* `Kalibr.Histogram.C151_median`
* `Kalibr.Histogram.C151_counts`
* `Kalibr.Histogram.C151_normalized`
* `Kalibr.Generic.C152_jacobian_partial`
* `Kalibr.Generic.C152_plain_jacobian_partial`
* `Kalibr.Generic.C152_quotient_counterexample`
* `Kalibr.Generic.C152_variable`
* `Kalibr.Generic.Fixed.C153_sum`
* `Kalibr.Generic.Fixed.C153_product`
* `Kalibr.Generic.Fixed.C153_quotient`
* `Kalibr.Generic.Fixed.C153_conversions`
* `Kalibr.Generic.Fixed.C153_convert_partial`
* `Kalibr.Generic.Fixed.C153_convert_counterexample`
* `Kalibr.Numpy.C154_matrix_partial`
* `Kalibr.Numpy.C154_vector_partial`
* `Kalibr.Numpy.C154_round_trip`
* `Kalibr.Numpy.C154_long_counterexample`
* `Kalibr.Mask.C155_overlap_partial`
* `Kalibr.Mask.C155_ratios`
* `Kalibr.Mask.C155_mask_counterexample`
* `Kalibr.Mask.C155_mask_unchanged`
* `Kalibr.Mask.C155_sample`
* `Kalibr.Mask.C155_distance_counterexample`
* `Kalibr.Mask.C155_matrix`
* `Kalibr.Mask.C155_outside_counterexample`
* `Kalibr.Mask.C155_copy_counterexample`
* `Kalibr.Bag.C156_images_partial`
* `Kalibr.Bag.C156_order_counterexample`
* `Kalibr.Bag.C156_imu_counterexample`
* `Kalibr.Bag.C156_imu_stamp_counterexample`
* `Kalibr.Bag.C156_imu_stamp_partial`
* `Kalibr.Bag.C156_small_stamp`
* `Kalibr.Export.C157_msf`
* `Kalibr.Export.C157_okvis_partial`
* `Kalibr.Export.C157_okvis_left_out`
* `Kalibr.Export.C157_okvis_size_counterexample`
* `Kalibr.Export.C157_okvis_fov_counterexample`
* `Kalibr.Export.C157_okvis_topic_counterexample`
* `Kalibr.Export.C157_rovio_partial`
* `Kalibr.Export.C157_rovio_files`
* `Kalibr.Export.C157_rovio_counterexample`
* `Kalibr.Validator.C158_pairs`
* `Kalibr.Validator.C158_poses`
* `Kalibr.Validator.C158_rectified`
* `Kalibr.Validator.C158_upright_counterexample`
* `Kalibr.Validator.C158_errors_counterexample`
* `Kalibr.Report.C159_uncertainty`
* `Kalibr.Report.C159_statistics`
* `Kalibr.Report.C159_mean_std`
* `Kalibr.Report.C160_pages`
* `Kalibr.Report.C160_icc_figures`
* `Kalibr.Report.C160_cam_figures_partial`
* `Kalibr.Visual.C161_sensors_partial`
* `Kalibr.Visual.C161_files`
* `Kalibr.Visual.C161_files_counterexample`
* `Kalibr.Visual.C162_cameras`
* `Kalibr.Visual.C162_imu`
* `Kalibr.Visual.C162_outline_partial`
* `Kalibr.Visual.C162_omni_counterexample`
* `Kalibr.Visual.C163_focus`
* `Kalibr.Visual.C163_missing_frequency`
* `Kalibr.Serial.C164_matrices_partial`
* `Kalibr.Serial.C164_matrices_counterexample`
* `Kalibr.Serial.C164_sizes`
* `Kalibr.Serial.C164_images_partial`
* `Kalibr.Serial.C164_images_counterexample`
* `Kalibr.Serial.C164_kinematics`
* `Kalibr.Serial.C164_keypoints_partial`
* `Kalibr.Serial.C164_keypoints_counterexample`
* `Kalibr.Serial.C164_landmarks`
* `Kalibr.Serial.C165_distortions_and_shutters`
* `Kalibr.Serial.C165_projections`
* `Kalibr.Serial.C165_cameras`
* `Kalibr.Serial.C165_masks_partial`
* `Kalibr.Serial.C165_masks_counterexample`
* `Kalibr.Serial.C165_targets`
* `Kalibr.Serial.C165_observations_partial`
* `Kalibr.Serial.C165_detectors`
* `Kalibr.PTree.C166_set`
* `Kalibr.PTree.C166_set_get`
* `Kalibr.PTree.C166_history`
* `Kalibr.PTree.C166_errors`
* `Kalibr.PTree.C166_default_partial`
* `Kalibr.PTree.C166_default_counterexample`
* `Kalibr.PTree.C166_exists_counterexample`
* `Kalibr.Util.C167_replace_counterexample`
* `Kalibr.Util.C167_replace_reverse_partial`
* `Kalibr.Util.C167_replace_reverse_counterexample`
* `Kalibr.Util.C167_variables`
* `Kalibr.Util.C167_no_variables`
* `Kalibr.Util.C167_identifier_text`
* `Kalibr.Util.C167_identifier_injective`
* `Kalibr.Util.C167_identifier_equal`
* `Kalibr.Util.C167_identifier_order`
* `Kalibr.Util.C167_identifier_valid`
* `Kalibr.Util.C167_comparisons`
* `Kalibr.Util.C167_comparisons_refused`
* `Kalibr.Util.C168_big_partial`
* `Kalibr.Util.C168_little_counterexample`
* `Kalibr.Util.C168_little_partial`
* `Kalibr.Util.C168_lowest_counterexample`
* `Kalibr.Util.C168_narrow_counterexample`
* `Kalibr.Gme.C169_jacobian_partial`
* `Kalibr.Gme.C169_design_variables`
* `Kalibr.Gme.C169_unit_quaternion_step`
* `Kalibr.Gme.C169_left_translated_counterexample`
* `Kalibr.Gme.C169_exp_of_vector_counterexample`
* `Kalibr.Gme.C169_quaternion_operations`
* `Kalibr.Gme.C169_rotate`
* `Kalibr.Gme.C169_rotate_length`
* `Kalibr.Gme.C169_exp_partial`
* `Kalibr.Gme.C169_update_keeps_length_partial`
* `Kalibr.Align.C170_best_transformation`
* `Kalibr.Align.C170_recovers_transformation`
* `Kalibr.Align.C170_best_rotation`
* `Kalibr.Align.C170_recovers_rotation`
* `Kalibr.Align.C170_unweighted`
* `Kalibr.Trafo.C171_set`
* `Kalibr.Trafo.C171_inverse_partial`
* `Kalibr.Trafo.C171_matrix`
* `Kalibr.Trafo.C171_matrix_plane`
* `Kalibr.Trafo.C171_inverses`
* `Kalibr.Trafo.C171_inverse_twice_counterexample`
* `Kalibr.Trafo.C171_inverse_of_matrix_counterexample`
* `Kalibr.Trafo.C171_inverse_stale_counterexample`
* `Kalibr.Trafo.C171_plane_partial`
* `Kalibr.Trafo.C171_plane_twice_counterexample`
* `Kalibr.Mutex.C172_exclusion_partial`
* `Kalibr.Mutex.C172_calls`
* `Kalibr.Mutex.C172_condition_wait`
* `Kalibr.Undist.C173_outer`
* `Kalibr.Undist.C173_inner`
* `Kalibr.Undist.C173_camera_matrix`
* `Kalibr.Undist.C173_map`
* `Kalibr.Undist.C173_entry`
* `Kalibr.Undist.C173_far_counterexample`
* `Kalibr.Undist.C173_undistorted`
* `Kalibr.Undist.C173_omni_pinhole`
* `Kalibr.Undist.C173_omni_frame_partial`
* `Kalibr.Undist.C173_identity_counterexample`
* `Kalibr.Undist.C173_mask_counterexample`
* `Kalibr.Undist.C173_null_partial`
* `Kalibr.Undist.C173_null_scale`
* `Kalibr.Undist.C173_null_size_counterexample`
* `Kalibr.Fov.C174_ratio`
* `Kalibr.Fov.C174_mask_partial`
* `Kalibr.Fov.C174_mask_counterexample`
* `Kalibr.Fov.C174_point`
* `Kalibr.Thr.C175_life_partial`
* `Kalibr.Thr.C175_interrupt_ends_partial`
* `Kalibr.Thr.C175_lost_interrupt_counterexample`
* `Kalibr.Stamp.C176_timespec_partial`
* `Kalibr.Stamp.C176_negative_counterexample`
* `Kalibr.Stamp.C176_huge_counterexample`
* `Kalibr.Stamp.C176_stop`
* `Kalibr.Stamp.C176_runs`
* `Kalibr.Stamp.C176_stop_twice_counterexample`
* `Kalibr.LogFlag.C177_quiescent`
* `Kalibr.LogFlag.C177_progress_partial`
* `Kalibr.LogFlag.C177_deadlock_counterexample`
* `Kalibr.LogPrint.C178_message`
* `Kalibr.LogPrint.C178_history`
* `Kalibr.LogPrint.C178_failed_counterexample`
* `Kalibr.LogPrint.C178_field`
* `Kalibr.LogPrint.C178_line`
* `Kalibr.LogPrint.C178_unknown`
* `Kalibr.LogPrint.C178_default`
* `Kalibr.LogPrint.C178_all_printed_partial`
* `Kalibr.Depth.C179_project`
* `Kalibr.Depth.C179_recover`
* `Kalibr.Depth.C179_history`
* `Kalibr.Depth.C179_parameters`
* `Kalibr.Depth.C179_distortion_counterexample`
* `Kalibr.Depth.C179_jacobian_counterexample`
* `Kalibr.Depth.C179_twice_counterexample`
* `Kalibr.Depth.C179_back_counterexample`
* `Kalibr.Depth.C179_intrinsics_counterexample`
* `Kalibr.Depth.C179_homogeneous_counterexample`
* `Kalibr.Depth.C179_homogeneous_partial`
* `Kalibr.Depth.C179_random_counterexample`
* `Kalibr.Reuse.C180_exact`
* `Kalibr.Reuse.C180_structure`
* `Kalibr.Reuse.C180_written`
* `Kalibr.RsCov.C181_sqrt`
* `Kalibr.RsCov.C181_weight`
* `Kalibr.RsCov.C181_still`
* `Kalibr.RsCov.C181_singular_counterexample`
* `Kalibr.RsCov.C181_no_spline_counterexample`
* `Kalibr.RsCov.C181_map_partial`
* `Kalibr.RsCov.C181_map_counterexample`
* `Kalibr.Printed.C182_perspective_counterexample`
* `Kalibr.Printed.C182_boxes`
* `Kalibr.Printed.C182_corners`
* `Kalibr.Printed.C182_cells`
* `Kalibr.Printed.C182_printable`
* `Kalibr.Printed.C182_default_counterexample`
* `Kalibr.Printed.C182_no_gap_counterexample`
* `Kalibr.Printed.C182_read`
* `Kalibr.Printed.C182_found`
* `Kalibr.Random.C183_seed`
* `Kalibr.Random.C183_seed_counterexample`
* `Kalibr.Random.C183_uniform`
* `Kalibr.Random.C183_range`
* `Kalibr.Random.C183_reversed`
* `Kalibr.Random.C183_int`
* `Kalibr.Random.C183_each`
* `Kalibr.Random.C183_overflow_counterexample`
* `Kalibr.Simple.C184_once_partial`
* `Kalibr.Simple.C184_clear`
* `Kalibr.Dense.C185_system`
* `Kalibr.Dense.C185_solution`
* `Kalibr.Dense.C185_lower`
* `Kalibr.Dense.C185_singular_counterexample`
* `Kalibr.Schur.C186_schur`
* `Kalibr.Schur.C186_back`
* `Kalibr.Schur.C186_coupled_counterexample`
* `Kalibr.OldOpt.C187_stops`
* `Kalibr.OldOpt.C187_iteration_partial`
* `Kalibr.OldOpt.C187_descent_partial`
* `Kalibr.OldOpt.C187_final_partial`
* `Kalibr.OldOpt.C187_newton_partial`
* `Kalibr.OldOpt.C187_failure_counterexample`
* `Kalibr.OldOpt.C187_final_counterexample`
* `Kalibr.OldOpt.C187_lambda_counterexample`
* `Kalibr.OldDog.C188_region`
* `Kalibr.OldDog.C188_keeps`
* `Kalibr.OldDog.C188_descent`
* `Kalibr.OldDog.C188_ends`
* `Kalibr.OldDog.C188_cauchy_counterexample`
* `Kalibr.NumDiff.C189_estimate`
* `Kalibr.NumDiff.C189_exact`
* `Kalibr.NumDiff.C189_error`
* `Kalibr.NumDiff.C189_term`
* `Kalibr.NumDiff.C189_camera`
* `Kalibr.NumDiff.C189_camera_exact`
* `Kalibr.NumDiff.C189_intrinsic_partial`
* `Kalibr.NumDiff.C189_intrinsic_counterexample`
* `Kalibr.NumDiff.C189_stale_counterexample`
* `Kalibr.Ccs.C191_read`
* `Kalibr.Ccs.C191_order`
* `Kalibr.Ccs.C191_name`
* `Kalibr.Ids.C192_counter`
* `Kalibr.VecDv.C193_call`
* `Kalibr.VecDv.C193_revert`
* `Kalibr.VecDv.C193_new`
* `Kalibr.Quadratic.C194_partial`
* `Kalibr.Quadratic.C194_counterexample`
* `Kalibr.Quadratic.C194_linear`
* `Kalibr.Quadratic.C194_sign`
* `Kalibr.RCov.C195_covariance_partial`
* `Kalibr.RCov.C195_counterexample`
* `Kalibr.RCov.C195_logarithm`
* `Kalibr.RCov.C195_determinant`
* `Kalibr.Homog.C197_history_partial`
* `Kalibr.Homog.C197_corners`
* `Kalibr.Homog.C197_detected`
* `Kalibr.Homog.C197_counterexample`
* `Kalibr.MatDv.C198_dimension`
* `Kalibr.MatDv.C198_update_partial`
* `Kalibr.MatDv.C198_counterexample`
* `Kalibr.MatDv.C198_revert`
* `Kalibr.MatDv.C198_jacobian`
* `Kalibr.Lm.C199_copy_partial`
* `Kalibr.Lm.C199_keypoint`
* `Kalibr.Kinds.C200_blocks`
* `Kalibr.Kinds.C200_dense`
* `Kalibr.Kinds.C200_agree_partial`

## propext, Quot.sound (72)

* `Kalibr.Archive.C05_min_counterexample`
* `Kalibr.MatArchive.C09_counterexample`
* `Kalibr.MatArchive.C11_counterexample`
* `Kalibr.Tag.C16_too_large`
* `Kalibr.Optimizer.C23_deterministic`
* `Kalibr.Jacobian.C26_lookup`
* `Kalibr.CCM.C27_toDense`
* `Kalibr.Problem.C30_add_error_raises`
* `Kalibr.Sparse.C33_scale`
* `Kalibr.Sparse.C34_values`
* `Kalibr.Batch.C35_contents`
* `Kalibr.Batch.C35_permute_length`
* `Kalibr.Batch.C35_permute_hangs`
* `Kalibr.Merged.C36_other_calls`
* `Kalibr.Merged.C37_counterexample`
* `Kalibr.Merged.C37_failed_add_partial`
* `Kalibr.BSpline.C47_counts_inverse`
* `Kalibr.Permute.C61_elements_kept`
* `Kalibr.Permute.C61_in_range`
* `Kalibr.MatArchive.C64_counterexample`
* `Kalibr.MatArchive.C64_keeps_partial`
* `Kalibr.MatArchive.C65_counterexample`
* `Kalibr.Optimizer.C68_current_cost_partial`
* `Kalibr.Optimizer.C69_stops_on_convergence_partial`
* `Kalibr.Motion.C104_update_revert`
* `Kalibr.Motion.C104_minimal_difference_partial`
* `Kalibr.Motion.C104_minimal_difference_counterexample`
* `Kalibr.Fit.C110_matrix`
* `Kalibr.App.C120_exception_counterexample`
* `Kalibr.App.C123_target`
* `Kalibr.App.C124_statistics_counterexample`
* `Kalibr.App.C124_errors`
* `Kalibr.App.Config.C127_written_counterexample`
* `Kalibr.App.Config.C127_pinhole_counterexample`
* `Kalibr.App.Config.C127_target_counterexample`
* `Kalibr.Icc.C130_baseline_counterexample`
* `Kalibr.Icc.Rs.C131_terms_iff`
* `Kalibr.Icc.Rs.C131_whole_partial`
* `Kalibr.Icc.Rs.C131_pair_counterexample`
* `Kalibr.Numpy.C154_refused`
* `Kalibr.Numpy.C154_size_counterexample`
* `Kalibr.Report.C160_cam_figures_counterexample`
* `Kalibr.Visual.C161_no_models_counterexample`
* `Kalibr.PTree.C166_namespaces`
* `Kalibr.Util.C167_replace_partial`
* `Kalibr.Util.C167_leading_pad`
* `Kalibr.Util.C168_narrow`
* `Kalibr.Mutex.C172_no_lost_wakeup`
* `Kalibr.Mutex.C172_wait_without_lock_counterexample`
* `Kalibr.Mutex.C172_recursive_wait_counterexample`
* `Kalibr.Thr.C175_wait_partial`
* `Kalibr.Thr.C175_create_counterexample`
* `Kalibr.LogFlag.C177_level`
* `Kalibr.LogFlag.C177_location`
* `Kalibr.LogFlag.C177_streams`
* `Kalibr.LogPrint.C178_split`
* `Kalibr.LogPrint.C178_severity`
* `Kalibr.LogPrint.C178_exclusive_partial`
* `Kalibr.Reuse.C180_columns_lost`
* `Kalibr.Reuse.C180_ordering`
* `Kalibr.Reuse.C180_room`
* `Kalibr.Simple.C184_order`
* `Kalibr.Simple.C184_distinct`
* `Kalibr.Simple.C184_add`
* `Kalibr.Simple.C184_addShared`
* `Kalibr.Simple.C184_revert`
* `Kalibr.OldOpt.C187_order`
* `Kalibr.Ids.C192_order`
* `Kalibr.Ids.C192_increment`
* `Kalibr.Single.C196_one_partial`
* `Kalibr.Single.C196_same`
* `Kalibr.Single.C196_threads_end`

