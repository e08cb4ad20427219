# Axioms of the claimed theorems

Output of `#print axioms` for every theorem in MANIFEST.json, grouped.

## no axioms (4 theorems)

* `Mrcal.Kwargs.legacy_optimize_not_honoured`
* `Mrcal.Outliers.corresponding_unobserved`
* `Mrcal.Outliers.corresponding_out_of_bounds`
* `Mrcal.StereoTool.stretch_wrong`

## Classical.choice, Quot.sound, propext (988 theorems)

* `Mrcal.StateLayout.state_layout_tiles`
* `Mrcal.StateLayout.state_loc_in_range`
* `Mrcal.StateLayout.state_loc_strictMono`
* `Mrcal.StateLayout.state_index_absent_iff`
* `Mrcal.Meas.meas_layout_tiles`
* `Mrcal.Meas.meas_loc_in_range`
* `Mrcal.Meas.meas_loc_strictMono`
* `Mrcal.Meas.meas_index_absent_iff`
* `Mrcal.Tri.tri_measurements_are_pairs`
* `Mrcal.Tri.tri_decode_inverts`
* `Mrcal.Tri.tri_terminated_iff`
* `Mrcal.Ingest.ingest_accepts_iff`
* `Mrcal.Ingest.ingest_groups`
* `Mrcal.Ingest.ingest_measurements`
* `Mrcal.Validate.validate_boards_iff`
* `Mrcal.Validate.validate_points_iff`
* `Mrcal.Validate.validate_sound`
* `Mrcal.Callback.callback_fills_exactly`
* `Mrcal.Callback.callback_rows`
* `Mrcal.Callback.callback_columns_in_range`
* `Mrcal.Callback.callback_columns_sorted_partial`
* `Mrcal.Callback.board_columns`
* `Mrcal.Callback.point_columns`
* `Mrcal.Callback.tri_columns`
* `Mrcal.Callback.tri_columns_not_sorted`
* `Mrcal.Callback.outlier_contributes_nothing`
* `Mrcal.Callback.outliers_keep_shape`
* `Mrcal.Callback.outliers_keep_columns_partial`
* `Mrcal.Callback.outlier_point_moves_columns`
* `Mrcal.Kwargs.explicit_size_rejected`
* `Mrcal.Kwargs.implicit_size_partial`
* `Mrcal.Callback.callback_board_residual`
* `Mrcal.Callback.callback_point_residual`
* `Mrcal.Callback.callback_tri_residual`
* `Mrcal.Callback.callback_reg_residuals`
* `Mrcal.Callback.tri_rows_are_pairs`
* `Mrcal.Pack.pack_vector_scales`
* `Mrcal.Pack.unpack_vector_scales`
* `Mrcal.Pack.pack_unpack_vector`
* `Mrcal.Pack.pack_unpack_array`
* `Mrcal.Pack.pack_unpack_array_roundtrip`
* `Mrcal.Pack.pack_state_values`
* `Mrcal.Pack.unpack_state_values`
* `Mrcal.Pack.unpack_pack_state`
* `Mrcal.Pack.pack_unpack_state`
* `Mrcal.Pack.unpack_keeps_locked`
* `Mrcal.Outliers.mark_nothing`
* `Mrcal.Outliers.mark_monotone`
* `Mrcal.Outliers.mark_progress`
* `Mrcal.Outliers.mark_thresholds`
* `Mrcal.Outliers.mark_divergent`
* `Mrcal.Outliers.mark_board_count`
* `Mrcal.Outliers.goes_again_decreases`
* `Mrcal.Outliers.reject_loop_terminates`
* `Mrcal.Outliers.reject_loop_bound`
* `Mrcal.Outliers.corresponding_sound`
* `Mrcal.Outliers.corresponding_fails_iff`
* `Mrcal.Outliers.corresponding_in_bounds`
* `Mrcal.Outliers.tri_count_partial`
* `Mrcal.Outliers.initial_count_partial`
* `Mrcal.Outliers.tri_count_wrong`
* `Mrcal.Outliers.zero_weight_count_differs`
* `Mrcal.Report.verbose_ok_partial`
* `Mrcal.Report.verbose_aborts`
* `Mrcal.Report.verbose_aborts_iff`
* `Mrcal.Links.traverse_shortest`
* `Mrcal.Links.traverse_stops`
* `Mrcal.Links.pairwise_range`
* `Mrcal.Links.pairwise_injective`
* `Mrcal.Links.pairwise_surjective`
* `Mrcal.Links.packUpper_length`
* `Mrcal.Links.packUpper_lookup`
* `Mrcal.Links.pairwise_fits_int`
* `Mrcal.Name.splined_roundtrip`
* `Mrcal.Name.noconfig_roundtrip`
* `Mrcal.Name.cahvore_roundtrip`
* `Mrcal.Name.cahvore_lossy`
* `Mrcal.Name.lensmodelName_whole`
* `Mrcal.Name.type_agrees`
* `Mrcal.Name.unknown_iff`
* `Mrcal.Name.missing_iff`
* `Mrcal.Name.config_ok_or_bad`
* `Mrcal.Name.config_meaning_partial`
* `Mrcal.Name.bad_config_accepted`
* `Mrcal.Spline.cubic_sum`
* `Mrcal.Spline.cubic_nonneg`
* `Mrcal.Spline.quad_sum`
* `Mrcal.Spline.quad_nonneg`
* `Mrcal.Spline.surface_constant`
* `Mrcal.Spline.surface_partial_x`
* `Mrcal.Spline.surface_partial_y`
* `Mrcal.Spline.cubic_surface_C2`
* `Mrcal.Spline.quad_surface_C1`
* `Mrcal.Spline.cubic_in_bounds`
* `Mrcal.Spline.quad_in_bounds`
* `Mrcal.Spline.ivar_ok`
* `Mrcal.Spline.zero_spline_stereographic`
* `Mrcal.Spline.knot_grid`
* `Mrcal.Spline.uEdge_meaning`
* `Mrcal.Spline.fov_covered`
* `Mrcal.Spline.fov_edge`
* `Mrcal.Spline.covered_cubic`
* `Mrcal.Spline.covered_quad`
* `Mrcal.Spline.splined_gradient`
* `Mrcal.Spline.splined_intrinsics_gradient`
* `Mrcal.Spline.stride_wraps`
* `Mrcal.Cam.pinhole_roundtrip`
* `Mrcal.Cam.pinhole_roundtrip2`
* `Mrcal.Cam.pinhole_scale`
* `Mrcal.Cam.pinhole_grad`
* `Mrcal.Cam.unpinhole_grad`
* `Mrcal.Cam.arrays`
* `Mrcal.Cam.arrays_unproject`
* `Mrcal.Cam.arrays_grad`
* `Mrcal.Cam.pinhole_array_partial`
* `Mrcal.Cam.pinhole_array_wrong`
* `Mrcal.Cam.pinhole_array_counterexample`
* `Mrcal.Cam.stereographic_roundtrip`
* `Mrcal.Cam.stereographic_roundtrip2`
* `Mrcal.Cam.stereographic_scale`
* `Mrcal.Cam.stereographic_grad`
* `Mrcal.Cam.unstereographic_grad`
* `Mrcal.Cam.unlonlat_unit`
* `Mrcal.Cam.unlatlon_unit`
* `Mrcal.Cam.lonlat_roundtrip`
* `Mrcal.Cam.lonlat_roundtrip2`
* `Mrcal.Cam.latlon_roundtrip`
* `Mrcal.Cam.latlon_roundtrip2`
* `Mrcal.Cam.lonlat_grad`
* `Mrcal.Cam.latlon_grad`
* `Mrcal.Cam.unlonlat_grad`
* `Mrcal.Cam.unlatlon_grad`
* `Mrcal.Cam.latlon_swap`
* `Mrcal.Cam.unlatlon_swap`
* `Mrcal.Cam.opencv_gradients`
* `Mrcal.Cam.opencv_nested`
* `Mrcal.Cam.opencv_zero`
* `Mrcal.Cam.opencv_reads_own`
* `Mrcal.Cam.opencv_scale`
* `Mrcal.Cam.opencv_axis`
* `Mrcal.Cam.cahvor_gradients`
* `Mrcal.Cam.cahvor_distort`
* `Mrcal.Cam.distorted_gradients`
* `Mrcal.Cam.cahvor_zero`
* `Mrcal.Cam.cahvor_scale`
* `Mrcal.AD.autodiff_sound_partial`
* `Mrcal.AD.autodiff_tracks`
* `Mrcal.AD.sinxOverX_inexact`
* `Mrcal.AD.sinxOverX_bound`
* `Mrcal.Pose.transform_meaning`
* `Mrcal.Pose.transform_inverted`
* `Mrcal.Pose.compose_transform`
* `Mrcal.Pose.compose_assoc`
* `Mrcal.Pose.compose_identity`
* `Mrcal.Pose.invert_transform`
* `Mrcal.Pose.compose_inverse`
* `Mrcal.Pose.compose_flags`
* `Mrcal.Pose.invert_invert`
* `Mrcal.Pose.compose_rot`
* `Mrcal.Pose.transform_gradient`
* `Mrcal.Pose.aligned_rotation`
* `Mrcal.Pose.R_from_r_meaning`
* `Mrcal.Pose.R_from_r_rot`
* `Mrcal.Pose.R_from_r_neg`
* `Mrcal.Pose.R_from_r_axis`
* `Mrcal.Pose.R_from_r_gradient`
* `Mrcal.Pose.R_from_r_gradient_zero`
* `Mrcal.Pose.rotate_wants`
* `Mrcal.Pose.rotate_meaning`
* `Mrcal.Pose.rotate_r_R`
* `Mrcal.Pose.rotate_inner`
* `Mrcal.Pose.rot_inner`
* `Mrcal.Pose.rotate_small_bound`
* `Mrcal.Pose.rotate_small_stretches`
* `Mrcal.Pose.rotate_gradient`
* `Mrcal.Pose.r_from_R_from_r`
* `Mrcal.Pose.R_from_r_from_R`
* `Mrcal.Pose.R_from_r_from_R_sym`
* `Mrcal.Pose.r_from_R_gradient`
* `Mrcal.Pose.r_from_R_gradient_sym`
* `Mrcal.Pose.compose_meaning`
* `Mrcal.Pose.compose_zero`
* `Mrcal.Pose.compose_flags_neg`
* `Mrcal.Pose.compose_wants`
* `Mrcal.Pose.compose_gradient`
* `Mrcal.Pose.compose_tiny_gradient`
* `Mrcal.Pose.compose_zero_gradient`
* `Mrcal.Pose.compose_zero_gradient1`
* `Mrcal.Pose.transform_rt_Rt`
* `Mrcal.Pose.invert_rt_Rt`
* `Mrcal.Pose.compose_rt_Rt`
* `Mrcal.Pose.compose_rt_Rt_zero`
* `Mrcal.Pose.transform_rt_gradient`
* `Mrcal.Pose.transform_rt_wants`
* `Mrcal.Pose.invert_rt_gradient`
* `Mrcal.Pose.compose_rt_gradient`
* `Mrcal.Pose.compose_rt_rotation`
* `Mrcal.Project.board_order`
* `Mrcal.Project.board_flat`
* `Mrcal.Project.board_warp`
* `Mrcal.Project.board_corners`
* `Mrcal.Project.board_symmetric`
* `Mrcal.Project.board_max`
* `Mrcal.Project.board_warp_gradient`
* `Mrcal.Project.ref_object_default`
* `Mrcal.Project.ref_object_surface`
* `Mrcal.Project.cam_point`
* `Mrcal.Project.ref_point`
* `Mrcal.Project.project_corner`
* `Mrcal.Project.project_corner_ref`
* `Mrcal.Project.project_corner_nowarp`
* `Mrcal.Project.project_discrete`
* `Mrcal.Project.project_discrete_ref`
* `Mrcal.Project.project_board`
* `Mrcal.Project.propagate_splined`
* `Mrcal.Project.lens_pinhole`
* `Mrcal.Project.lens_stereographic`
* `Mrcal.Project.lens_lonlat`
* `Mrcal.Project.lens_latlon`
* `Mrcal.Project.lens_opencv`
* `Mrcal.Project.lens_cahvor`
* `Mrcal.Project.lens_splined`
* `Mrcal.Cam.lens_cahvore`
* `Mrcal.Cam.cahvore_wants`
* `Mrcal.Cam.cahvore_distort`
* `Mrcal.Cam.cahvore_gradients`
* `Mrcal.Cam.cahvore_upsilon`
* `Mrcal.Cam.cahvore_converged`
* `Mrcal.Cam.cahvore_implicit`
* `Mrcal.Cam.cahvore_reg_E0`
* `Mrcal.Cam.cahvore_E0`
* `Mrcal.Cam.cahvore_cahvor`
* `Mrcal.Cam.cahvore_central`
* `Mrcal.Cam.cahvore_central_q`
* `Mrcal.Cam.cahvore_pinhole`
* `Mrcal.Cam.cahvore_fail_not_zero`
* `Mrcal.Cam.cahvore_fail_partial`
* `Mrcal.Cam.project_succeeds`
* `Mrcal.Cam.project_pixels`
* `Mrcal.Cam.project_gradients`
* `Mrcal.Cam.project_gradients_i`
* `Mrcal.Cam.project_gradient_p_partial`
* `Mrcal.Cam.project_gradient_p_wrong`
* `Mrcal.Cam.project_gradient_p_counterexample`
* `Mrcal.Cam.unproject_direct`
* `Mrcal.Cam.unproject_projects_partial`
* `Mrcal.Cam.unproject_exact`
* `Mrcal.Cam.unproject_jacobian`
* `Mrcal.Cam.unproject_seed`
* `Mrcal.Cam.unproject_seed_opencv`
* `Mrcal.Cam.unproject_noncentral`
* `Mrcal.Cam.unproject_solver_failure`
* `Mrcal.Cam.unproject_solver_failure_counterexample`
* `Mrcal.Cam.unproject_invalid_z`
* `Mrcal.Cam.unproject_cahvore_partial`
* `Mrcal.Cam.unproject_cahvore_wrong`
* `Mrcal.Tri.geometric_closest`
* `Mrcal.Tri.l1_coplanar`
* `Mrcal.Tri.l1_moves_one`
* `Mrcal.Tri.linf_coplanar`
* `Mrcal.Tri.l1_exact_partial`
* `Mrcal.Tri.linf_exact_partial`
* `Mrcal.Tri.geometric_exact_partial`
* `Mrcal.Tri.geometric_scale_wrong`
* `Mrcal.Tri.l1_sideways_wrong`
* `Mrcal.Tri.mid2_exact`
* `Mrcal.Tri.wmid2_exact`
* `Mrcal.Tri.lind_exact_partial`
* `Mrcal.Tri.lind_divisor`
* `Mrcal.Tri.lind_behind_wrong`
* `Mrcal.Tri.relu_spec`
* `Mrcal.Tri.sigmoid_spec`
* `Mrcal.Tri.sigmoid_sharp`
* `Mrcal.Tri.triangulated_error_value`
* `Mrcal.Tri.triangulated_error_nonneg`
* `Mrcal.Tri.triangulated_error_convergent`
* `Mrcal.Tri.triangulated_error_perfect`
* `Mrcal.Tri.triangulated_error_gradient`
* `Mrcal.Tri.geometric_sentinel`
* `Mrcal.Tri.l1_sentinel`
* `Mrcal.Tri.linf_sentinel`
* `Mrcal.Tri.mid2_sentinel`
* `Mrcal.Tri.wmid2_sentinel`
* `Mrcal.Tri.lind_sentinel`
* `Mrcal.Tri.isConvergent_spec`
* `Mrcal.Tri.isConvergent_perfect`
* `Mrcal.Tri.isConvergent_behind`
* `Mrcal.Tri.l1_optimal`
* `Mrcal.Tri.linf_optimal`
* `Mrcal.Tri.mid2_spec`
* `Mrcal.Tri.mid2_scale`
* `Mrcal.Tri.wmid2_spec`
* `Mrcal.Tri.wmid2_scale`
* `Mrcal.Tri.geometric_gradient`
* `Mrcal.Tri.mid2_gradient`
* `Mrcal.Tri.wmid2_gradient`
* `Mrcal.Tri.l1_gradient`
* `Mrcal.Tri.linf_gradient`
* `Mrcal.Tri.lind_gradient`
* `Mrcal.Tri.lind_step12_wrong`
* `Mrcal.Stereo.range_latlon`
* `Mrcal.Stereo.disparity_latlon`
* `Mrcal.Stereo.range_pinhole`
* `Mrcal.Stereo.disparity_pinhole`
* `Mrcal.Stereo.range_sparse`
* `Mrcal.Stereo.range_sparse_points`
* `Mrcal.Stereo.range_dense`
* `Mrcal.Stereo.stereo_range_int16`
* `Mrcal.Stereo.stereo_range_size`
* `Mrcal.Stereo.range_negative_wrong`
* `Mrcal.Stereo.stereo_range_float_wrong`
* `Mrcal.Stereo.stereo_range_int32_wrong`
* `Mrcal.Stereo.rect_axes`
* `Mrcal.Stereo.rect_geometry`
* `Mrcal.Stereo.rect_rows`
* `Mrcal.Stereo.rect_along_wrong`
* `Mrcal.Stereo.rectification_maps`
* `Mrcal.Stereo.maps_failure_wrong`
* `Mrcal.Stereo.az_center`
* `Mrcal.Stereo.rect_view`
* `Mrcal.Stereo.rect_view_default`
* `Mrcal.Stereo.rect_noncentral`
* `Mrcal.Stereo.rect_latlon`
* `Mrcal.Stereo.pinhole_cxy`
* `Mrcal.Stereo.rect_pinhole`
* `Mrcal.Stereo.rect_width_wrong`
* `Mrcal.Stereo.pinhole_fov_wrong`
* `Mrcal.Stereo.resolution_auto`
* `Mrcal.Stereo.dqDangle_deriv`
* `Mrcal.Stereo.centerRay_grad`
* `Mrcal.Stereo.stereo_chain`
* `Mrcal.Stereo.unproject_latlon`
* `Mrcal.Stereo.unproject_pinhole`
* `Mrcal.ModelFile.read_iff`
* `Mrcal.ModelFile.size_wrong`
* `Mrcal.ModelFile.sloppy_text`
* `Mrcal.ModelFile.into_success`
* `Mrcal.ModelFile.into_too_small`
* `Mrcal.ModelFile.into_retry`
* `Mrcal.ModelFile.into_failure`
* `Mrcal.ModelFile.write_read`
* `Mrcal.ModelFile.write_read_exact`
* `Mrcal.ModelFile.write_read_again`
* `Mrcal.ModelFile.write_read_wrong`
* `Mrcal.ModelFile.write_size_wrong`
* `Mrcal.ImageIO.crop_at`
* `Mrcal.ImageIO.bgr_rgb`
* `Mrcal.ImageIO.bgr_rgb_involution`
* `Mrcal.ColorMap.formula_documented`
* `Mrcal.ColorMap.auto_min`
* `Mrcal.ColorMap.auto_max`
* `Mrcal.ColorMap.auto_bounds_integer`
* `Mrcal.ColorMap.given_bounds`
* `Mrcal.ColorMap.fraction_lin`
* `Mrcal.ColorMap.exact_uint`
* `Mrcal.ColorMap.exact_int`
* `Mrcal.ColorMap.exact_float`
* `Mrcal.ColorMap.color_map`
* `Mrcal.ColorMap.color_map_default`
* `Mrcal.ColorMap.color_map_rejects`
* `Mrcal.ColorMap.auto_max_float_wrong`
* `Mrcal.ColorMap.int32_wrong`
* `Mrcal.ImageIO.save_accepts`
* `Mrcal.ImageIO.save_gray`
* `Mrcal.ImageIO.save_color`
* `Mrcal.ImageIO.save_gray16_partial`
* `Mrcal.ImageIO.save_gray16_wrong`
* `Mrcal.ImageIO.load_accepts`
* `Mrcal.ImageIO.load_gray`
* `Mrcal.ImageIO.load_gray16`
* `Mrcal.ImageIO.load_color`
* `Mrcal.ImageIO.save_load`
* `Mrcal.ImageIO.stretch_partial`
* `Mrcal.ImageIO.load_stretch_partial`
* `Mrcal.ImageIO.stretch_wrong`
* `Mrcal.Callback.callback_rows_right`
* `Mrcal.Callback.callback_jacobian`
* `Mrcal.Callback.callback_partials`
* `Mrcal.Callback.cost_gradient`
* `Mrcal.Callback.board_row_right`
* `Mrcal.Callback.point_row_right`
* `Mrcal.Callback.tri_row_right`
* `Mrcal.Callback.reg_rows_right`
* `Mrcal.Procrustes.vectors_optimal`
* `Mrcal.Procrustes.vectors_api`
* `Mrcal.Procrustes.vectors_contiguous`
* `Mrcal.Procrustes.vectors_parallel_error`
* `Mrcal.Procrustes.vectors_unique_partial`
* `Mrcal.Procrustes.vectors_unique_wrong`
* `Mrcal.Procrustes.points_optimal_partial`
* `Mrcal.Procrustes.points_balanced_partial`
* `Mrcal.Procrustes.points_contiguous`
* `Mrcal.Procrustes.points_collinear_error`
* `Mrcal.Procrustes.points_weighted_wrong`
* `Mrcal.Procrustes.points_scale_wrong`
* `Mrcal.Uncertainty.cross_reprojection_optimal`
* `Mrcal.Uncertainty.cross_reprojection_succeeds_iff`
* `Mrcal.Uncertainty.pose_velocity`
* `Mrcal.Uncertainty.point_velocity`
* `Mrcal.Uncertainty.boards_points_warp_fail_wrong`
* `Mrcal.Uncertainty.points_only_fail_wrong`
* `Mrcal.Uncertainty.warp_point_observations_fail_wrong`
* `Mrcal.Uncertainty.empty_row_fail_wrong`
* `Mrcal.Propagate.covariance_correct`
* `Mrcal.Propagate.propagate_succeeds_iff`
* `Mrcal.Propagate.response_exists_unique`
* `Mrcal.Propagate.mean_zero`
* `Mrcal.Propagate.worst_direction_correct`
* `Mrcal.Propagate.worst_direction_reported`
* `Mrcal.Propagate.rms_stdev`
* `Mrcal.Propagate.estimate_formula`
* `Mrcal.Propagate.estimate_mean`
* `Mrcal.Propagate.estimate_biased_wrong`
* `Mrcal.ProjUnc.gradient_correct`
* `Mrcal.ProjUnc.uncertainty_covariance`
* `Mrcal.ProjUnc.uncertainty_worst_direction`
* `Mrcal.ProjUnc.uncertainty_rms`
* `Mrcal.ProjUnc.redone_exists`
* `Mrcal.ProjUnc.infinity_direction`
* `Mrcal.ProjUnc.infinity_gradient`
* `Mrcal.ProjUnc.infinity_covariance`
* `Mrcal.ProjUnc.uncertainty_available`
* `Mrcal.ProjUnc.gradient_available`
* `Mrcal.ProjUnc.fixed_intrinsics_wrong`
* `Mrcal.ProjUnc.fixed_extrinsics_wrong`
* `Mrcal.CamModel.pose_set_get`
* `Mrcal.CamModel.pose_default`
* `Mrcal.CamModel.pose_only`
* `Mrcal.CamModel.consistent`
* `Mrcal.CamModel.consistent_unset`
* `Mrcal.CamModel.set_accepted`
* `Mrcal.CamModel.failed_set_partial`
* `Mrcal.CamModel.failed_set_wrong`
* `Mrcal.CamModel.region_set`
* `Mrcal.CamModel.copy_partial`
* `Mrcal.CamModel.copy_wrong`
* `Mrcal.CamModel.construct_parts`
* `Mrcal.CamModel.construct_inputs`
* `Mrcal.CamModel.inputs_roundtrip`
* `Mrcal.CamModel.inputs_stable`
* `Mrcal.CamModel.call_succeeds`
* `Mrcal.CamModel.old_name_wrong`
* `Mrcal.ModelPy.write_read`
* `Mrcal.ModelPy.write_read_write`
* `Mrcal.ModelPy.write_read_exact`
* `Mrcal.ModelPy.legacy_read`
* `Mrcal.ModelPy.read_pose`
* `Mrcal.ModelPy.reset_write_read_wrong`
* `Mrcal.ModelPy.write_read_digits_wrong`
* `Mrcal.ModelPy.c_reads_python`
* `Mrcal.ModelPy.python_reads_c`
* `Mrcal.ModelPy.large_region_wrong`
* `Mrcal.ModelPy.height_zero_wrong`
* `Mrcal.ModelPy.carriage_return_wrong`
* `Mrcal.CahvorFile.written_equations`
* `Mrcal.CahvorFile.write_succeeds_iff`
* `Mrcal.CahvorFile.read_pose`
* `Mrcal.CahvorFile.read_equations`
* `Mrcal.CahvorFile.read_succeeds_iff`
* `Mrcal.CahvorFile.write_read_partial`
* `Mrcal.CahvorFile.write_read_wrong`
* `Mrcal.CahvorFile.integer_axis_wrong`
* `Mrcal.CahvorFile.empty_region_wrong`
* `Mrcal.RosFile.read_iff`
* `Mrcal.RosFile.read_ambiguous`
* `Mrcal.RosFile.read_rectified`
* `Mrcal.RosFile.write_succeeds_iff`
* `Mrcal.RosFile.write_read_partial`
* `Mrcal.RosFile.pose_wrong`
* `Mrcal.RosFile.rectification_wrong`
* `Mrcal.RosFile.mirror_wrong`
* `Mrcal.Quaternion.R_from_quat_meaning`
* `Mrcal.Quaternion.R_from_quat_rotation_iff`
* `Mrcal.Quaternion.R_from_quat_compose`
* `Mrcal.Quaternion.quat_from_R_unit`
* `Mrcal.Quaternion.quat_from_R_iff`
* `Mrcal.Quaternion.quat_R_quat`
* `Mrcal.Quaternion.R_from_quat_eq_iff`
* `Mrcal.Quaternion.R_from_quat_angle_axis`
* `Mrcal.Quaternion.quat_from_R_angle_axis`
* `Mrcal.Quaternion.Rt_qt_Rt`
* `Mrcal.Quaternion.qt_Rt_qt`
* `Mrcal.Quaternion.scalar_part_wrong`
* `Mrcal.ImageTransform.map_meaning`
* `Mrcal.ImageTransform.map_unseen`
* `Mrcal.ImageTransform.map_succeeds_iff`
* `Mrcal.ImageTransform.opencv_same_partial`
* `Mrcal.ImageTransform.along_sees`
* `Mrcal.ImageTransform.infinity_limit`
* `Mrcal.ImageTransform.opencv_same_wrong`
* `Mrcal.ImageTransform.plane_sign_wrong`
* `Mrcal.ImageTransform.scale_best_partial`
* `Mrcal.ImageTransform.fit_visible_partial`
* `Mrcal.ImageTransform.pinhole_model_meaning`
* `Mrcal.ImageTransform.scale_image_partial`
* `Mrcal.ImageTransform.scale_image_inside`
* `Mrcal.ImageTransform.axis_wrong`
* `Mrcal.ImageTransform.center_wrong`
* `Mrcal.UnprojectPy.direct_gradients`
* `Mrcal.UnprojectPy.main_gradients`
* `Mrcal.UnprojectPy.main_gradients_normalized`
* `Mrcal.UnprojectPy.main_exists`
* `Mrcal.UnprojectPy.smooth_ocv_cahvor`
* `Mrcal.UnprojectPy.normalized_orthogonal`
* `Mrcal.UnprojectPy.same_vectors_partial`
* `Mrcal.UnprojectPy.failed_wrong`
* `Mrcal.TriPy.returned`
* `Mrcal.TriPy.zero_noise`
* `Mrcal.TriPy.points_meaning`
* `Mrcal.TriPy.call_forms`
* `Mrcal.TriPy.same_points`
* `Mrcal.TriPy.exact_point`
* `Mrcal.TriPy.calibration_covariance`
* `Mrcal.TriPy.observation_covariance`
* `Mrcal.TriPy.joint_covariance`
* `Mrcal.TriPy.available`
* `Mrcal.TriPy.calibration_required`
* `Mrcal.TriPy.calibration_accepted`
* `Mrcal.TriPy.available_observation`
* `Mrcal.TriPy.point_moves`
* `Mrcal.TriPy.core_only_wrong`
* `Mrcal.TriPy.lindstrom_wrong`
* `Mrcal.TriPy.failed_variance_wrong`
* `Mrcal.ModelDiff.grid_points`
* `Mrcal.ModelDiff.grid_inside`
* `Mrcal.ModelDiff.grid_corners_partial`
* `Mrcal.ModelDiff.grid_square`
* `Mrcal.ModelDiff.residual_r_right`
* `Mrcal.ModelDiff.residual_rt_right`
* `Mrcal.ModelDiff.invalid_ignored`
* `Mrcal.ModelDiff.valid_used`
* `Mrcal.ModelDiff.terms_mem`
* `Mrcal.ModelDiff.fit_infinity_partial`
* `Mrcal.ModelDiff.fit_finite_partial`
* `Mrcal.ModelDiff.fit_accepted`
* `Mrcal.ModelDiff.grid_corner_wrong`
* `Mrcal.ModelDiff.fit_same_wrong`
* `Mrcal.ModelDiff.diff_meaning`
* `Mrcal.ModelDiff.transform_chosen`
* `Mrcal.ModelDiff.diff_extrinsics`
* `Mrcal.ModelDiff.diff_intrinsics`
* `Mrcal.ModelDiff.diff_self`
* `Mrcal.ModelDiff.diff_fit_infinity_partial`
* `Mrcal.ModelDiff.diff_fit_finite_partial`
* `Mrcal.ModelDiff.many_rms`
* `Mrcal.ModelDiff.fit_weights`
* `Mrcal.ModelDiff.focus_region`
* `Mrcal.ModelDiff.reference_free`
* `Mrcal.ModelDiff.accepted`
* `Mrcal.ModelDiff.cahvore_diff_partial`
* `Mrcal.ModelDiff.ray_cases`
* `Mrcal.ModelDiff.infinity_extrinsics_wrong`
* `Mrcal.ModelDiff.failed_reported_wrong`
* `Mrcal.ModelDiff.tiny_wrong`
* `Mrcal.ModelDiff.pair_reproject`
* `Mrcal.ModelDiff.pair_diff_meaning`
* `Mrcal.ModelDiff.pair_reference_free`
* `Mrcal.ModelDiff.pair_same`
* `Mrcal.ModelDiff.pair_round_trip`
* `Mrcal.ModelDiff.pair_accepted`
* `Mrcal.ModelDiff.pair_cahvore_wrong`
* `Mrcal.Resolution.resolution_meaning`
* `Mrcal.Resolution.resolution_clamped`
* `Mrcal.Resolution.resolution_succeeds`
* `Mrcal.Resolution.resolution_single_wrong`
* `Mrcal.Corners.frames_meaning`
* `Mrcal.Corners.frames_padded`
* `Mrcal.Corners.mapping_meaning`
* `Mrcal.Corners.mapping_sequential`
* `Mrcal.Corners.frames_unpadded_wrong`
* `Mrcal.Corners.point_meaning`
* `Mrcal.Corners.corners_points`
* `Mrcal.Corners.corners_frames`
* `Mrcal.Corners.corners_synchronized`
* `Mrcal.Corners.corners_accepted`
* `Mrcal.Corners.corners_described`
* `Mrcal.Corners.corners_min_wrong`
* `Mrcal.Corners.corners_nan_wrong`
* `Mrcal.Seed.seed_exact`
* `Mrcal.Seed.seed_numbered_partial`
* `Mrcal.Seed.seed_numbered_wrong`
* `Mrcal.Seed.seed_accepted_partial`
* `Mrcal.Seed.seed_accepted_wrong`
* `Mrcal.Seed.seed_order_wrong`
* `Mrcal.Seed.seed_connected`
* `Mrcal.Pnp.pose_exact_partial`
* `Mrcal.Pnp.pose_exact_wrong`
* `Mrcal.Pnp.pose_front`
* `Mrcal.Pnp.seed_stereographic_exact_partial`
* `Mrcal.Pnp.seed_stereographic_accepted`
* `Mrcal.Pnp.seed_stereographic_focals`
* `Mrcal.Perfect.hypothesis_meaning`
* `Mrcal.Perfect.perfect_measurements`
* `Mrcal.Perfect.noisy_measurements`
* `Mrcal.Perfect.mask_changed_wrong`
* `Mrcal.Perfect.outliers_lost_wrong`
* `Mrcal.Kalibr.read_chain`
* `Mrcal.Kalibr.read_inline`
* `Mrcal.Kalibr.read_which`
* `Mrcal.Kalibr.inline_which`
* `Mrcal.Kalibr.near_identity`
* `Mrcal.Kalibr.write_chain`
* `Mrcal.Kalibr.round_trip_partial`
* `Mrcal.Kalibr.graft_radius_0`
* `Mrcal.Kalibr.graft_implied`
* `Mrcal.Kalibr.first_dropped_wrong`
* `Mrcal.Kalibr.mirror_wrong`
* `Mrcal.CornerTools.rotate_accepts`
* `Mrcal.CornerTools.rotate_meaning`
* `Mrcal.CornerTools.rotate_back`
* `Mrcal.CornerTools.cull_lines`
* `Mrcal.CornerTools.cull_left`
* `Mrcal.CornerTools.level_written`
* `Mrcal.CornerTools.cull_radius_partial`
* `Mrcal.CornerTools.cull_board_partial`
* `Mrcal.CornerTools.random_images_partial`
* `Mrcal.CornerTools.level_survives`
* `Mrcal.CornerTools.left_equal_wrong`
* `Mrcal.CornerTools.rad_negative_wrong`
* `Mrcal.CornerTools.board_missing_wrong`
* `Mrcal.CornerTools.random_level0_wrong`
* `Mrcal.IndexApi.state_api_partial`
* `Mrcal.IndexApi.state_blocks_partial`
* `Mrcal.IndexApi.state_absent_partial`
* `Mrcal.IndexApi.lensmodel_checked`
* `Mrcal.IndexApi.measurement_api_partial`
* `Mrcal.IndexApi.measurement_blocks_partial`
* `Mrcal.IndexApi.num_measurements_none_wrong`
* `Mrcal.IndexApi.negative_fixed_wrong`
* `Mrcal.IngestState.ingest_partial`
* `Mrcal.IngestState.columns_wrong`
* `Mrcal.IngestState.points_wrong`
* `Mrcal.IngestState.distortions_wrong`
* `Mrcal.IngestState.size_checked`
* `Mrcal.Synthesize.synthesized`
* `Mrcal.Synthesize.ends`
* `Mrcal.Synthesize.which_checked`
* `Mrcal.Synthesize.fewer_frames`
* `Mrcal.Synthesize.behind_wrong`
* `Mrcal.MatchFeature.match_found`
* `Mrcal.MatchFeature.match_none`
* `Mrcal.MatchFeature.corners_inside`
* `Mrcal.MatchFeature.surface_exact`
* `Mrcal.MatchFeature.stationary_extremum`
* `Mrcal.MatchFeature.best_reported`
* `Mrcal.MatchFeature.shift_found`
* `Mrcal.MatchFeature.symmetric_exact`
* `Mrcal.MatchFeature.args_checked`
* `Mrcal.MatchFeature.template_inside_partial`
* `Mrcal.MatchFeature.template_edge_wrong`
* `Mrcal.MatchFeature.template_projective_wrong`
* `Mrcal.MatchFeature.saddle_wrong`
* `Mrcal.MatchFeature.degenerate_wrong`
* `Mrcal.Solve.optimize_total`
* `Mrcal.Solve.divergence_rays`
* `Mrcal.Solve.solved_reproducible`
* `Mrcal.Solve.cost_not_increased`
* `Mrcal.Solve.solved_rms`
* `Mrcal.Solve.outliers_only_added`
* `Mrcal.Solve.failed_arrays_unchanged`
* `Mrcal.Solve.solved_arrays`
* `Mrcal.Solve.solved_no_outliers_left`
* `Mrcal.Solve.solved_counts`
* `Mrcal.Solve.optimize_succeeds`
* `Mrcal.Solve.optimize_refuses`
* `Mrcal.Solve.python_sizes_fit`
* `Mrcal.Solve.python_reproducible_partial`
* `Mrcal.Solve.callback_refuses_iff`
* `Mrcal.Solve.divergence_test_uses_seed_wrong`
* `Mrcal.Solve.failed_marks_kept_wrong`
* `Mrcal.Solve.python_tri_outliers_lost_wrong`
* `Mrcal.Solve.rms_documented_wrong`
* `Mrcal.Solve.tri_outliers_not_counted_wrong`
* `Mrcal.Solve.check_gradient_wrong`
* `Mrcal.Polyline.domain_cubic`
* `Mrcal.Polyline.domain_quad_partial`
* `Mrcal.Polyline.domain_quad_wrong`
* `Mrcal.Polyline.domain_other`
* `Mrcal.Polyline.densify_partial`
* `Mrcal.Polyline.densify_trivial`
* `Mrcal.Polyline.densify_short_wrong`
* `Mrcal.Polyline.densify_spacing_wrong`
* `Mrcal.Polyline.densify_single_wrong`
* `Mrcal.Ply.write_accepts_iff`
* `Mrcal.Ply.binary_readable`
* `Mrcal.Ply.ascii_readable_partial`
* `Mrcal.Ply.write_bytes`
* `Mrcal.Ply.ascii_bgr_wrong`
* `Mrcal.Ply.ascii_precision_wrong`
* `Mrcal.Ply.ascii_range_wrong`
* `Mrcal.Calibrate.args_accepted_iff`
* `Mrcal.Calibrate.run_iff`
* `Mrcal.Calibrate.files_written`
* `Mrcal.Calibrate.files_one_solution`
* `Mrcal.Calibrate.corners_kept`
* `Mrcal.Calibrate.skip_intrinsics`
* `Mrcal.Calibrate.skip_extrinsics`
* `Mrcal.Calibrate.seeded_deterministic`
* `Mrcal.Calibrate.unseeded_start`
* `Mrcal.Calibrate.names_distinct`
* `Mrcal.Calibrate.spline_focal_shared_wrong`
* `Mrcal.Calibrate.spline_focal_lost_wrong`
* `Mrcal.StereoPy.rectified_accepted`
* `Mrcal.StereoPy.sparse_value`
* `Mrcal.StereoPy.scalar_value`
* `Mrcal.StereoPy.sparse_accepted`
* `Mrcal.StereoPy.dense_value`
* `Mrcal.StereoPy.dense_sparse`
* `Mrcal.StereoPy.bounds_scaled`
* `Mrcal.StereoPy.range_of_points`
* `Mrcal.StereoPy.reference_sparse`
* `Mrcal.StereoPy.reference_dense`
* `Mrcal.StereoPy.unproject_ranges`
* `Mrcal.StereoPy.unproject_one`
* `Mrcal.StereoPy.unproject_image`
* `Mrcal.StereoPy.unproject_list`
* `Mrcal.StereoPy.swapped_wrong`
* `Mrcal.StereoPy.both_wrong`
* `Mrcal.StereoPy.min_truncated_wrong`
* `Mrcal.StereoPy.scale_truncated_wrong`
* `Mrcal.StereoPy.max_wrapped_wrong`
* `Mrcal.StereoPy.reference_float_wrong`
* `Mrcal.Convert.solve_converted`
* `Mrcal.Convert.seed_tiny`
* `Mrcal.Convert.converted_model`
* `Mrcal.Convert.region_partial`
* `Mrcal.Convert.monocular_views`
* `Mrcal.Convert.monocular_poses`
* `Mrcal.Convert.pixels_partial`
* `Mrcal.Convert.default_region`
* `Mrcal.Convert.samples_meaning`
* `Mrcal.Convert.trial_fit`
* `Mrcal.Convert.sampled_model`
* `Mrcal.Convert.output_name`
* `Mrcal.Convert.output_all`
* `Mrcal.Convert.same_lens`
* `Mrcal.Convert.options`
* `Mrcal.Convert.margin_wrong`
* `Mrcal.Convert.monocular_reference_wrong`
* `Mrcal.Convert.viz_last_wrong`
* `Mrcal.Convert.overwrites_wrong`
* `Mrcal.Convert.default_margin`
* `Mrcal.Convert.start_core`
* `Mrcal.Convert.hypothesis_points`
* `Mrcal.Region.cell_stats_partial`
* `Mrcal.Region.corner_number`
* `Mrcal.Region.using_matches`
* `Mrcal.Region.cell_unique`
* `Mrcal.Region.vertex_valid`
* `Mrcal.Region.region_shape`
* `Mrcal.Region.region_accepted`
* `Mrcal.Region.region_largest`
* `Mrcal.Region.region_empty`
* `Mrcal.Region.tool_vertices`
* `Mrcal.Region.holes`
* `Mrcal.Region.mean_wrong`
* `Mrcal.Region.count_wrong`
* `Mrcal.Region.boundary_wrong`
* `Mrcal.Region.holes_wrong`
* `Mrcal.Region.narrow_wrong`
* `Mrcal.Region.show_regional_wrong`
* `Mrcal.Reproject.output_names`
* `Mrcal.Reproject.outputs_differ`
* `Mrcal.Reproject.files_changed`
* `Mrcal.Reproject.no_overwrite`
* `Mrcal.Reproject.process_images_partial`
* `Mrcal.Reproject.modes`
* `Mrcal.Reproject.bad_options`
* `Mrcal.Reproject.fit_points_partial`
* `Mrcal.Reproject.fit_fraction_wrong`
* `Mrcal.Reproject.collision_wrong`
* `Mrcal.Reproject.pair_wrong`
* `Mrcal.Reproject.jobs_wrong`
* `Mrcal.Reproject.skipped_wrong`
* `Mrcal.Reproject.extension_wrong`
* `Mrcal.Reproject.nothing_processed`
* `Mrcal.PointTools.points_meaning`
* `Mrcal.PointTools.points_intrinsics`
* `Mrcal.PointTools.points_nan`
* `Mrcal.PointTools.points_translation`
* `Mrcal.PointTools.points_warning`
* `Mrcal.PointTools.points_undo_image_partial`
* `Mrcal.PointTools.points_empty_wrong`
* `Mrcal.PointTools.points_column_wrong`
* `Mrcal.PointTools.fov_vertical`
* `Mrcal.PointTools.fov_horizontal_partial`
* `Mrcal.PointTools.fov_pinhole`
* `Mrcal.PointTools.fov_corner_partial`
* `Mrcal.PointTools.isAngle_unique`
* `Mrcal.PointTools.fov_undefined_wrong`
* `Mrcal.PointTools.fov_nan_wrong`
* `Mrcal.PointTools.fov_outside_wrong`
* `Mrcal.PointTools.within_each`
* `Mrcal.PointTools.keys_sorted_partial`
* `Mrcal.PointTools.keys_wrong`
* `Mrcal.Format.target_exists_unique`
* `Mrcal.Format.target_not_input`
* `Mrcal.Format.format_target`
* `Mrcal.Format.converts_partial`
* `Mrcal.Format.keeps_files`
* `Mrcal.Format.only_targets`
* `Mrcal.Format.standard_output`
* `Mrcal.Format.two_stdin`
* `Mrcal.Format.named_stops_wrong`
* `Mrcal.Format.failed_write_wrong`
* `Mrcal.Format.force_lost_wrong`
* `Mrcal.Format.collision_wrong`
* `Mrcal.Format.note_written`
* `Mrcal.Format.note_wrong`
* `Mrcal.Format.write_format`
* `Mrcal.TriTool.homography_feature`
* `Mrcal.TriTool.homography_plane`
* `Mrcal.TriTool.perfect_range`
* `Mrcal.TriTool.perfect_plane_wrong`
* `Mrcal.TriTool.axis_angle`
* `Mrcal.TriTool.perturb_rot`
* `Mrcal.TriTool.perturbed_meaning`
* `Mrcal.TriTool.perturbed_zero`
* `Mrcal.TriTool.axes_unit`
* `Mrcal.TriTool.worst_largest`
* `Mrcal.TriTool.start_spec`
* `Mrcal.TriTool.correct_pose`
* `Mrcal.TriTool.far_wrong`
* `Mrcal.TriTool.correct_wrong`
* `Mrcal.TriTool.plot_axes`
* `Mrcal.StereoTool.keeps_files`
* `Mrcal.StereoTool.only_outputs`
* `Mrcal.StereoTool.in_outdir`
* `Mrcal.StereoTool.models_only`
* `Mrcal.StereoTool.counts_checked`
* `Mrcal.StereoTool.all_pairs_partial`
* `Mrcal.StereoTool.refused_wrong`
* `Mrcal.StereoTool.parallel_wrong`
* `Mrcal.StereoTool.pair_written_partial`
* `Mrcal.StereoTool.same_name_wrong`
* `Mrcal.StereoTool.files_distinct`
* `Mrcal.StereoTool.cloud_points`
* `Mrcal.StereoTool.cloud_valid`
* `Mrcal.StereoTool.disparities_near`
* `Mrcal.StereoTool.gray_wrong`
* `Mrcal.SortedEig.sorted_pairs`
* `Mrcal.SortedEig.sorted_eigen`
* `Mrcal.SortedEig.extremes`
* `Mrcal.SortedEig.worst_direction`
* `Mrcal.SortedEig.plane_variance`
* `Mrcal.SortedEig.ellipse_contour`
* `Mrcal.SortedEig.ellipse_extent`
* `Mrcal.SortedEig.ellipse_none`
* `Mrcal.SortedEig.points_variance`
* `Mrcal.SortedEig.points_ellipse`
* `Mrcal.SortedEig.jt_x`
* `Mrcal.ShowResiduals.argument`
* `Mrcal.ShowResiduals.argument_only`
* `Mrcal.ShowResiduals.wanted_numbers`
* `Mrcal.ShowResiduals.bad_argument`
* `Mrcal.ShowResiduals.wanted_globs`
* `Mrcal.ShowResiduals.glob_nothing`
* `Mrcal.ShowResiduals.from_worst`
* `Mrcal.ShowResiduals.from_worst_rank`
* `Mrcal.ShowResiduals.plot_meaning`
* `Mrcal.ShowResiduals.plot_from_worst`
* `Mrcal.ShowResiduals.rms_meaning`
* `Mrcal.ShowResiduals.image_meaning`
* `Mrcal.ShowResiduals.windows_partial`
* `Mrcal.ShowResiduals.windows_from_worst_partial`
* `Mrcal.ShowResiduals.hardcopy_partial`
* `Mrcal.ShowResiduals.windows_wrong`
* `Mrcal.ShowResiduals.reversed_range_wrong`
* `Mrcal.ShowResiduals.hardcopy_glob_wrong`
* `Mrcal.Geometry.cameras_meaning`
* `Mrcal.Geometry.fromsolve_cameras`
* `Mrcal.Geometry.fromsolve_all`
* `Mrcal.Geometry.fromsolve_refused`
* `Mrcal.Geometry.boards_meaning`
* `Mrcal.Geometry.fromsolve_boards`
* `Mrcal.Geometry.explicit_boards`
* `Mrcal.Geometry.refused`
* `Mrcal.Geometry.points_meaning`
* `Mrcal.Geometry.labels_partial`
* `Mrcal.Geometry.labels_wrong`
* `Mrcal.Geometry.no_labels_wrong`
* `Mrcal.Geometry.no_extrinsics_wrong`
* `Mrcal.Residuals.measurements_board_meaning`
* `Mrcal.Residuals.measurements_point_meaning`
* `Mrcal.Residuals.vectorfield_partial`
* `Mrcal.Residuals.magnitudes_partial`
* `Mrcal.Residuals.directions_partial`
* `Mrcal.Residuals.both_wrong`
* `Mrcal.Residuals.histogram_meaning`
* `Mrcal.Residuals.refused`
* `Mrcal.Residuals.gaussian_meaning`
* `Mrcal.Residuals.gaussian_args`
* `Mrcal.Polygon.union_partial`
* `Mrcal.Polygon.terminates`
* `Mrcal.Polygon.cut_meaning`
* `Mrcal.Polygon.tiny_hole_wrong`
* `Mrcal.VsDistance.observed_partial`
* `Mrcal.VsDistance.observed_corners`
* `Mrcal.VsDistance.reference_wrong`
* `Mrcal.VsDistance.distances_meaning`
* `Mrcal.VsDistance.ray_meaning`
* `Mrcal.VsDistance.curve_partial`
* `Mrcal.VsDistance.default_wrong`
* `Mrcal.VsDistance.refused`
* `Mrcal.VsDistance.tool_partial`
* `Mrcal.VsDistance.tool_refused`
* `Mrcal.VsDistance.tool_wrong`
* `Mrcal.VsDistance.contours`
* `Mrcal.OffPinhole.angle_meaning`
* `Mrcal.OffPinhole.opencv_curve`
* `Mrcal.OffPinhole.exact_wrong`
* `Mrcal.OffPinhole.stereographic_curve`
* `Mrcal.OffPinhole.sampled_meaning`
* `Mrcal.OffPinhole.sampled_on_curve`
* `Mrcal.OffPinhole.markers_meaning`
* `Mrcal.OffPinhole.radial_refused`
* `Mrcal.OffPinhole.opencv_plot`
* `Mrcal.OffPinhole.heat_meaning`
* `Mrcal.OffPinhole.heat_refused`
* `Mrcal.OffPinhole.pinhole_zero`
* `Mrcal.OffPinhole.vectors_partial`
* `Mrcal.OffPinhole.outline_wrong`
* `Mrcal.SplinedCorrection.deltau_meaning`
* `Mrcal.SplinedCorrection.surface_meaning`
* `Mrcal.SplinedCorrection.surface_imager`
* `Mrcal.SplinedCorrection.vectors_meaning`
* `Mrcal.SplinedCorrection.vectors_imager`
* `Mrcal.SplinedCorrection.contour_partial`
* `Mrcal.SplinedCorrection.boundary_partial`
* `Mrcal.SplinedCorrection.warning_partial`
* `Mrcal.SplinedCorrection.refused`
* `Mrcal.SplinedCorrection.plotted`
* `Mrcal.SplinedCorrection.single_wrong`
* `Mrcal.SplinedCorrection.silent_wrong`
* `Mrcal.ShowRegion.curves_meaning`
* `Mrcal.ShowRegion.refused_iff`
* `Mrcal.ShowRegion.title_meaning`
* `Mrcal.ShowRegion.names_wrong`
* `Mrcal.ShowRegion.annotate_meaning`
* `Mrcal.ShowRegion.tool_partial`
* `Mrcal.ShowRegion.overwrite_wrong`
* `Mrcal.ShowRegion.tool_title_wrong`
* `Mrcal.GeometryTool.read_iff`
* `Mrcal.GeometryTool.order_free`
* `Mrcal.GeometryTool.pose_meaning`
* `Mrcal.GeometryTool.incomplete_wrong`
* `Mrcal.GeometryTool.pair_meaning`
* `Mrcal.GeometryTool.refs_partial`
* `Mrcal.GeometryTool.missing_wrong`
* `Mrcal.GeometryTool.item_meaning`
* `Mrcal.GeometryTool.icams_meaning`
* `Mrcal.GeometryTool.swapped_wrong`
* `Mrcal.Boundaries.state_labels`
* `Mrcal.Boundaries.measurement_labels_partial`
* `Mrcal.Boundaries.triangulated_wrong`
* `Mrcal.PointPose.parts`
* `Mrcal.PointPose.others_ignored`
* `Mrcal.PointPose.six_needed`
* `Mrcal.PointPose.exact_partial`
* `Mrcal.PointPose.unique_planar`
* `Mrcal.PointPose.behind_wrong`
* `Mrcal.PointPose.negative_wrong`
* `Mrcal.LinksPython.traverse_correct`
* `Mrcal.LinksPython.refused`
* `Mrcal.LinksPython.sorted_standard`
* `Mrcal.AlignedPython.same`
* `Mrcal.AlignedPython.rotation`
* `Mrcal.Overlay.drawn`
* `Mrcal.Overlay.legend_meaning`
* `Mrcal.Overlay.count`
* `Mrcal.Overlay.refused`
* `Mrcal.Overlay.missing_wrong`
* `Mrcal.Overlay.triangulated_wrong`
* `Mrcal.UncertaintyPlot.heat_meaning`
* `Mrcal.UncertaintyPlot.overlays`
* `Mrcal.UncertaintyPlot.refused`
* `Mrcal.UncertaintyPlot.title_meaning`
* `Mrcal.DiffRegion.drawn_partial`
* `Mrcal.DiffRegion.nothing`
* `Mrcal.DiffRegion.empty_refused`
* `Mrcal.DiffRegion.three_wrong`
* `Mrcal.DiffRegion.intrinsics_only_wrong`
* `Mrcal.StereoPairPlot.which_regions`
* `Mrcal.StereoPairPlot.first_camera`
* `Mrcal.StereoPairPlot.second_camera_partial`
* `Mrcal.StereoPairPlot.arrows_meaning`
* `Mrcal.StereoPairPlot.infinity_consistent`
* `Mrcal.StereoPairPlot.distance_wrong`

## Quot.sound, propext (18 theorems)

* `Mrcal.Kwargs.legacy_honoured_state_index_partial`
* `Mrcal.Kwargs.legacy_ignored_when_new_empty`
* `Mrcal.Kwargs.legacy_ignored_by_optimize`
* `Mrcal.Kwargs.legacy_optimize_partial`
* `Mrcal.Kwargs.delete_unknown_spec`
* `Mrcal.Kwargs.selections_spec`
* `Mrcal.Kwargs.default_optimizes_all_partial`
* `Mrcal.Kwargs.default_leaves_points_out`
* `Mrcal.Links.pairwise_symm`
* `Mrcal.Links.pairwise_overflows`
* `Mrcal.ImageIO.at_address`
* `Mrcal.Corners.mapping_accepted`
* `Mrcal.Corners.corners_path`
* `Mrcal.CornerTools.turned_total`
* `Mrcal.Region.area_rectangle`
* `Mrcal.StereoTool.disparities_wrong`
* `Mrcal.StereoTool.stretch_range`
* `Mrcal.GeometryTool.icams_refused`

## propext (12 theorems)

* `Mrcal.Validate.validate_accepts_negative_fixed`
* `Mrcal.Kwargs.explicit_zero_size_ignored`
* `Mrcal.Name.params_documented`
* `Mrcal.Spline.lens_numParams`
* `Mrcal.ImageIO.at_address_wrong`
* `Mrcal.Corners.frames_single`
* `Mrcal.Corners.corners_path_wrong`
* `Mrcal.CornerTools.select_meaning`
* `Mrcal.Region.plot_region_wrong`
* `Mrcal.StereoTool.tag_clean`
* `Mrcal.StereoTool.gray_partial`
* `Mrcal.SplinedCorrection.title_wrong`
