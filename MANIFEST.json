{
 "claims": [
  {
   "property": "C01",
   "status": "proved",
   "theorems": [
    "Mrcal.StateLayout.state_layout_tiles",
    "Mrcal.StateLayout.state_loc_in_range",
    "Mrcal.StateLayout.state_loc_strictMono",
    "Mrcal.StateLayout.state_index_absent_iff"
   ],
   "note": "int overflow not modelled"
  },
  {
   "property": "C02",
   "status": "proved",
   "theorems": [
    "Mrcal.Meas.meas_layout_tiles",
    "Mrcal.Meas.meas_loc_in_range",
    "Mrcal.Meas.meas_loc_strictMono",
    "Mrcal.Meas.meas_index_absent_iff"
   ],
   "note": "int overflow not modelled"
  },
  {
   "property": "C08",
   "status": "proved",
   "theorems": [
    "Mrcal.Tri.tri_measurements_are_pairs",
    "Mrcal.Tri.tri_decode_inverts",
    "Mrcal.Tri.tri_terminated_iff"
   ],
   "note": "sqrt is the exact real square root"
  },
  {
   "property": "C09",
   "status": "proved",
   "theorems": [
    "Mrcal.Ingest.ingest_accepts_iff",
    "Mrcal.Ingest.ingest_groups",
    "Mrcal.Ingest.ingest_measurements"
   ],
   "note": "unproject() success is an input of the model"
  },
  {
   "property": "C10",
   "status": "proved",
   "theorems": [
    "Mrcal.Validate.validate_boards_iff",
    "Mrcal.Validate.validate_points_iff",
    "Mrcal.Validate.validate_sound",
    "Mrcal.Validate.validate_accepts_negative_fixed"
   ],
   "note": "numpy dtype/shape checks not modelled. Deviation: negative Npoints_fixed accepted"
  },
  {
   "property": "C03",
   "status": "proved",
   "theorems": [
    "Mrcal.Callback.callback_fills_exactly",
    "Mrcal.Callback.callback_rows"
   ],
   "note": "projection results are parameters of the model; int overflow not modelled"
  },
  {
   "property": "C04",
   "status": "partial",
   "theorems": [
    "Mrcal.Callback.callback_columns_in_range",
    "Mrcal.Callback.callback_columns_sorted_partial",
    "Mrcal.Callback.board_columns",
    "Mrcal.Callback.point_columns",
    "Mrcal.Callback.tri_columns",
    "Mrcal.Callback.tri_columns_not_sorted"
   ],
   "note": "The range claim is proved in full. The ordering claim is false for triangulated pairs whose cameras aren't listed in increasing order: tri_columns_not_sorted; the order is proved for all other rows"
  },
  {
   "property": "C05",
   "status": "partial",
   "theorems": [
    "Mrcal.Callback.outlier_contributes_nothing",
    "Mrcal.Callback.outliers_keep_shape",
    "Mrcal.Callback.outliers_keep_columns_partial",
    "Mrcal.Callback.outlier_point_moves_columns"
   ],
   "note": "Counts and zero contribution proved in full. The column claim is false for splined models when a point observation flips: outlier_point_moves_columns"
  },
  {
   "property": "C42",
   "status": "partial",
   "theorems": [
    "Mrcal.Kwargs.legacy_honoured_state_index_partial",
    "Mrcal.Kwargs.legacy_ignored_when_new_empty",
    "Mrcal.Kwargs.legacy_ignored_by_optimize",
    "Mrcal.Kwargs.legacy_optimize_not_honoured",
    "Mrcal.Kwargs.legacy_optimize_partial"
   ],
   "note": "The code ignores the legacy names in optimize(); negation proved"
  },
  {
   "property": "C43",
   "status": "partial",
   "theorems": [
    "Mrcal.Kwargs.delete_unknown_spec",
    "Mrcal.Kwargs.selections_spec",
    "Mrcal.Kwargs.default_optimizes_all_partial",
    "Mrcal.Kwargs.default_leaves_points_out"
   ],
   "note": "with points but no frames the default leaves the points out; negation proved"
  },
  {
   "property": "C44",
   "status": "partial",
   "theorems": [
    "Mrcal.Kwargs.explicit_size_rejected",
    "Mrcal.Kwargs.explicit_zero_size_ignored",
    "Mrcal.Kwargs.implicit_size_partial"
   ],
   "note": "The keyword filter rejects explicit sizes; negation proved"
  },
  {
   "property": "C45",
   "status": "proved",
   "theorems": [
    "Mrcal.Callback.callback_board_residual",
    "Mrcal.Callback.callback_point_residual",
    "Mrcal.Callback.callback_tri_residual",
    "Mrcal.Callback.callback_reg_residuals",
    "Mrcal.Callback.tri_rows_are_pairs"
   ],
   "note": "projection results are parameters of the model"
  },
  {
   "property": "C06",
   "status": "proved",
   "theorems": [
    "Mrcal.Pack.pack_vector_scales",
    "Mrcal.Pack.unpack_vector_scales",
    "Mrcal.Pack.pack_unpack_vector",
    "Mrcal.Pack.pack_unpack_array",
    "Mrcal.Pack.pack_unpack_array_roundtrip"
   ],
   "note": "exact arithmetic. An empty state (Nstate=0) divides by zero in the python wrapper: excluded by hypothesis, recorded in DESIGN.md"
  },
  {
   "property": "C07",
   "status": "proved",
   "theorems": [
    "Mrcal.Pack.pack_state_values",
    "Mrcal.Pack.unpack_state_values",
    "Mrcal.Pack.unpack_pack_state",
    "Mrcal.Pack.pack_unpack_state",
    "Mrcal.Pack.unpack_keeps_locked"
   ],
   "note": "exact arithmetic"
  },
  {
   "property": "C11",
   "status": "proved",
   "theorems": [
    "Mrcal.Outliers.mark_nothing",
    "Mrcal.Outliers.mark_monotone",
    "Mrcal.Outliers.mark_progress",
    "Mrcal.Outliers.mark_thresholds",
    "Mrcal.Outliers.mark_divergent",
    "Mrcal.Outliers.mark_board_count",
    "Mrcal.Outliers.goes_again_decreases",
    "Mrcal.Outliers.reject_loop_terminates",
    "Mrcal.Outliers.reject_loop_bound"
   ],
   "note": "exact arithmetic. The exact thresholds are stated for passes with no newly-divergent triangulated pair; everything else is for all passes. The solver is an arbitrary source of residuals"
  },
  {
   "property": "C12",
   "status": "proved",
   "theorems": [
    "Mrcal.Outliers.corresponding_sound",
    "Mrcal.Outliers.corresponding_fails_iff",
    "Mrcal.Outliers.corresponding_in_bounds",
    "Mrcal.Outliers.corresponding_unobserved",
    "Mrcal.Outliers.corresponding_out_of_bounds"
   ],
   "note": "Deviations recorded: unobserved cameras are reported as -100; unvalidated observation indices are used as array indices"
  },
  {
   "property": "C46",
   "status": "partial",
   "theorems": [
    "Mrcal.Outliers.tri_count_partial",
    "Mrcal.Outliers.initial_count_partial",
    "Mrcal.Outliers.tri_count_wrong",
    "Mrcal.Outliers.zero_weight_count_differs",
    "Mrcal.Outliers.mark_board_count"
   ],
   "note": "False in the code: negations proved"
  },
  {
   "property": "C47",
   "status": "partial",
   "theorems": [
    "Mrcal.Report.verbose_ok_partial",
    "Mrcal.Report.verbose_aborts",
    "Mrcal.Report.verbose_aborts_iff"
   ],
   "note": "False in the code: with unity_cam01 regularization on and the main regularization off, the verbose solve aborts"
  },
  {
   "property": "C14",
   "status": "proved",
   "theorems": [
    "Mrcal.Links.traverse_shortest",
    "Mrcal.Links.traverse_stops"
   ],
   "note": "for 1..65535 sensors, any standard-conforming heap. Nsensors=0 writes out of bounds in the C and is excluded; the int arithmetic of the packed index is exact up to 46341 sensors (C15)"
  },
  {
   "property": "C15",
   "status": "proved",
   "theorems": [
    "Mrcal.Links.pairwise_symm",
    "Mrcal.Links.pairwise_range",
    "Mrcal.Links.pairwise_injective",
    "Mrcal.Links.pairwise_surjective",
    "Mrcal.Links.packUpper_length",
    "Mrcal.Links.packUpper_lookup",
    "Mrcal.Links.pairwise_fits_int",
    "Mrcal.Links.pairwise_overflows"
   ],
   "note": "Integer overflow beyond 46341 sensors recorded as a deviation"
  },
  {
   "property": "C13",
   "status": "proved",
   "theorems": [
    "Mrcal.Name.splined_roundtrip",
    "Mrcal.Name.noconfig_roundtrip",
    "Mrcal.Name.cahvore_roundtrip",
    "Mrcal.Name.cahvore_lossy",
    "Mrcal.Name.lensmodelName_whole",
    "Mrcal.Name.params_documented",
    "Mrcal.Name.type_agrees",
    "Mrcal.Name.unknown_iff",
    "Mrcal.Name.missing_iff",
    "Mrcal.Name.config_ok_or_bad"
   ],
   "note": "scanf's %lf is modelled for decimal notation without exponents; linearity is an exact decimal"
  },
  {
   "property": "C48",
   "status": "partial",
   "theorems": [
    "Mrcal.Name.config_meaning_partial",
    "Mrcal.Name.bad_config_accepted"
   ],
   "note": "False in the code: negation proved"
  },
  {
   "property": "C16",
   "status": "proved",
   "theorems": [
    "Mrcal.Spline.cubic_sum",
    "Mrcal.Spline.cubic_nonneg",
    "Mrcal.Spline.quad_sum",
    "Mrcal.Spline.quad_nonneg",
    "Mrcal.Spline.surface_constant",
    "Mrcal.Spline.surface_partial_x",
    "Mrcal.Spline.surface_partial_y"
   ],
   "note": "exact real arithmetic"
  },
  {
   "property": "C17",
   "status": "proved",
   "theorems": [
    "Mrcal.Spline.cubic_surface_C2",
    "Mrcal.Spline.quad_surface_C1"
   ],
   "note": "jointly smooth in both grid coordinates, everywhere, including the transition to the extrapolated region"
  },
  {
   "property": "C18",
   "status": "proved",
   "theorems": [
    "Mrcal.Spline.cubic_in_bounds",
    "Mrcal.Spline.quad_in_bounds",
    "Mrcal.Spline.lens_numParams",
    "Mrcal.Spline.ivar_ok"
   ],
   "note": "for any integers that the float-to-int conversion may produce"
  },
  {
   "property": "C19",
   "status": "proved",
   "theorems": [
    "Mrcal.Spline.zero_spline_stereographic"
   ],
   "note": "exact real arithmetic"
  },
  {
   "property": "C49",
   "status": "proved",
   "theorems": [
    "Mrcal.Spline.knot_grid",
    "Mrcal.Spline.uEdge_meaning",
    "Mrcal.Spline.fov_covered",
    "Mrcal.Spline.fov_edge",
    "Mrcal.Spline.covered_cubic",
    "Mrcal.Spline.covered_quad"
   ],
   "note": "declared fov between 1 and 359 degrees; fov=0 divides by 0 in the C"
  },
  {
   "property": "C50",
   "status": "partial",
   "theorems": [
    "Mrcal.Spline.splined_gradient",
    "Mrcal.Spline.splined_intrinsics_gradient",
    "Mrcal.Spline.stride_wraps"
   ],
   "note": "Holds for Nx<32768; false at Nx=32768 (uint16_t stride): negation proved. The C doesn't advance dq_dp in the path without parameter gradients, which the public API doesn't use with N>1"
  },
  {
   "property": "C20",
   "status": "partial",
   "theorems": [
    "Mrcal.Cam.pinhole_roundtrip",
    "Mrcal.Cam.pinhole_roundtrip2",
    "Mrcal.Cam.pinhole_scale",
    "Mrcal.Cam.pinhole_grad",
    "Mrcal.Cam.unpinhole_grad",
    "Mrcal.Cam.arrays",
    "Mrcal.Cam.arrays_unproject",
    "Mrcal.Cam.arrays_grad",
    "Mrcal.Cam.pinhole_array_partial",
    "Mrcal.Cam.pinhole_array_wrong",
    "Mrcal.Cam.pinhole_array_counterexample"
   ],
   "note": "Round trips, scale invariance and gradients hold for each point. The claim about arrays is false for mrcal_project_pinhole(): every iteration writes the first pixel, so only one-point arrays are right (pinhole_array_partial); pinhole_array_wrong and pinhole_array_counterexample prove the failure."
  },
  {
   "property": "C21",
   "status": "proved",
   "theorems": [
    "Mrcal.Cam.stereographic_roundtrip",
    "Mrcal.Cam.stereographic_roundtrip2",
    "Mrcal.Cam.stereographic_scale",
    "Mrcal.Cam.stereographic_grad",
    "Mrcal.Cam.unstereographic_grad"
   ],
   "note": ""
  },
  {
   "property": "C22",
   "status": "proved",
   "theorems": [
    "Mrcal.Cam.unlonlat_unit",
    "Mrcal.Cam.unlatlon_unit",
    "Mrcal.Cam.lonlat_roundtrip",
    "Mrcal.Cam.lonlat_roundtrip2",
    "Mrcal.Cam.latlon_roundtrip",
    "Mrcal.Cam.latlon_roundtrip2",
    "Mrcal.Cam.lonlat_grad",
    "Mrcal.Cam.latlon_grad",
    "Mrcal.Cam.unlonlat_grad",
    "Mrcal.Cam.unlatlon_grad",
    "Mrcal.Cam.latlon_swap",
    "Mrcal.Cam.unlatlon_swap"
   ],
   "note": ""
  },
  {
   "property": "C23",
   "status": "proved",
   "theorems": [
    "Mrcal.Cam.opencv_gradients",
    "Mrcal.Cam.opencv_nested",
    "Mrcal.Cam.opencv_zero",
    "Mrcal.Cam.opencv_reads_own",
    "Mrcal.Cam.opencv_scale",
    "Mrcal.Cam.opencv_axis"
   ],
   "note": ""
  },
  {
   "property": "C51",
   "status": "proved",
   "theorems": [
    "Mrcal.Cam.cahvor_gradients",
    "Mrcal.Cam.cahvor_distort",
    "Mrcal.Cam.distorted_gradients",
    "Mrcal.Cam.cahvor_zero",
    "Mrcal.Cam.cahvor_scale"
   ],
   "note": ""
  },
  {
   "property": "C30",
   "status": "partial",
   "theorems": [
    "Mrcal.AD.autodiff_sound_partial",
    "Mrcal.AD.autodiff_tracks",
    "Mrcal.AD.sinxOverX_inexact",
    "Mrcal.AD.sinxOverX_bound"
   ],
   "note": "Proved for every expression over the supported operators, by induction, except inside the |x|<1e-5 branch of sinx_over_x(), which reports the constant 1 with a zero gradient: sinxOverX_inexact proves that this isn't exact, sinxOverX_bound bounds the error."
  },
  {
   "property": "C25",
   "status": "proved",
   "theorems": [
    "Mrcal.Pose.transform_meaning",
    "Mrcal.Pose.transform_inverted",
    "Mrcal.Pose.compose_transform",
    "Mrcal.Pose.compose_assoc",
    "Mrcal.Pose.compose_identity",
    "Mrcal.Pose.invert_transform",
    "Mrcal.Pose.compose_inverse",
    "Mrcal.Pose.compose_flags",
    "Mrcal.Pose.invert_invert",
    "Mrcal.Pose.compose_rot",
    "Mrcal.Pose.transform_gradient"
   ],
   "note": "Exact arithmetic. The arrays are values: strides and in-place operation aren't in this model."
  },
  {
   "property": "C31",
   "status": "proved",
   "theorems": [
    "Mrcal.Pose.aligned_rotation"
   ],
   "note": "Exact arithmetic. Any nonzero vector."
  },
  {
   "property": "C26",
   "status": "proved",
   "theorems": [
    "Mrcal.Pose.R_from_r_meaning",
    "Mrcal.Pose.R_from_r_rot",
    "Mrcal.Pose.R_from_r_neg",
    "Mrcal.Pose.R_from_r_axis",
    "Mrcal.Pose.R_from_r_gradient",
    "Mrcal.Pose.R_from_r_gradient_zero",
    "Mrcal.Pose.rotate_wants",
    "Mrcal.Pose.rotate_meaning",
    "Mrcal.Pose.rotate_r_R",
    "Mrcal.Pose.rotate_inner",
    "Mrcal.Pose.rot_inner",
    "Mrcal.Pose.rotate_small_bound",
    "Mrcal.Pose.rotate_small_stretches",
    "Mrcal.Pose.rotate_gradient"
   ],
   "note": "Exact arithmetic. rotate_small_stretches shows that lengths aren't preserved exactly in the small-angle branch, so the statement bounds the error there instead."
  },
  {
   "property": "C27",
   "status": "proved",
   "theorems": [
    "Mrcal.Pose.r_from_R_from_r",
    "Mrcal.Pose.R_from_r_from_R",
    "Mrcal.Pose.R_from_r_from_R_sym",
    "Mrcal.Pose.r_from_R_gradient",
    "Mrcal.Pose.r_from_R_gradient_sym"
   ],
   "note": "Exact arithmetic. The open neighbourhoods (sin <= 1e-8) of 0 and 180 degrees are excluded; the end points are included."
  },
  {
   "property": "C28",
   "status": "proved",
   "theorems": [
    "Mrcal.Pose.compose_meaning",
    "Mrcal.Pose.compose_zero",
    "Mrcal.Pose.compose_flags_neg",
    "Mrcal.Pose.compose_wants",
    "Mrcal.Pose.compose_gradient",
    "Mrcal.Pose.compose_tiny_gradient",
    "Mrcal.Pose.compose_zero_gradient",
    "Mrcal.Pose.compose_zero_gradient1"
   ],
   "note": "Exact arithmetic. The approximations made for tiny nonzero rotations are excluded by the hypotheses."
  },
  {
   "property": "C29",
   "status": "proved",
   "theorems": [
    "Mrcal.Pose.transform_rt_Rt",
    "Mrcal.Pose.invert_rt_Rt",
    "Mrcal.Pose.compose_rt_Rt",
    "Mrcal.Pose.compose_rt_Rt_zero",
    "Mrcal.Pose.transform_rt_gradient",
    "Mrcal.Pose.transform_rt_wants",
    "Mrcal.Pose.invert_rt_gradient",
    "Mrcal.Pose.compose_rt_gradient",
    "Mrcal.Pose.compose_rt_rotation"
   ],
   "note": "Exact arithmetic. The strides and in-place operation aren't modelled."
  },
  {
   "property": "C24",
   "status": "proved",
   "theorems": [
    "Mrcal.Project.board_order",
    "Mrcal.Project.board_flat",
    "Mrcal.Project.board_warp",
    "Mrcal.Project.board_corners",
    "Mrcal.Project.board_symmetric",
    "Mrcal.Project.board_max",
    "Mrcal.Project.board_warp_gradient",
    "Mrcal.Project.ref_object_default",
    "Mrcal.Project.ref_object_surface"
   ],
   "note": "Exact arithmetic. Both project() and ref_calibration_object()."
  },
  {
   "property": "C52",
   "status": "proved",
   "theorems": [
    "Mrcal.Project.cam_point",
    "Mrcal.Project.ref_point",
    "Mrcal.Project.project_corner",
    "Mrcal.Project.project_corner_ref",
    "Mrcal.Project.project_corner_nowarp",
    "Mrcal.Project.project_discrete",
    "Mrcal.Project.project_discrete_ref",
    "Mrcal.Project.project_board",
    "Mrcal.Project.propagate_splined",
    "Mrcal.Project.lens_pinhole",
    "Mrcal.Project.lens_stereographic",
    "Mrcal.Project.lens_lonlat",
    "Mrcal.Project.lens_latlon",
    "Mrcal.Project.lens_opencv",
    "Mrcal.Project.lens_cahvor",
    "Mrcal.Project.lens_splined",
    "Mrcal.Cam.lens_cahvore"
   ],
   "note": "Exact arithmetic. The rotations near 0, near a full turn, and composing to near 0 or exactly 180 degrees are excluded, except for exact zeros. The splined lens with fixed intrinsics. "
  },
  {
   "property": "C53",
   "status": "proved",
   "theorems": [
    "Mrcal.Cam.cahvore_wants",
    "Mrcal.Cam.cahvore_distort",
    "Mrcal.Cam.cahvore_gradients",
    "Mrcal.Cam.cahvore_upsilon",
    "Mrcal.Cam.cahvore_converged",
    "Mrcal.Cam.cahvore_implicit",
    "Mrcal.Cam.cahvore_reg_E0"
   ],
   "note": "Exact arithmetic. CahvoreReg excludes the points where the iteration hits its thresholds exactly, and the 0<theta<=1e-8 branch, where the code ignores the distortion."
  },
  {
   "property": "C54",
   "status": "proved",
   "theorems": [
    "Mrcal.Cam.cahvore_E0",
    "Mrcal.Cam.cahvore_cahvor",
    "Mrcal.Cam.cahvore_central",
    "Mrcal.Cam.cahvore_central_q",
    "Mrcal.Cam.cahvore_pinhole"
   ],
   "note": "Exact arithmetic. 0<theta<=1e-8 excluded: the code returns the undistorted point there."
  },
  {
   "property": "C55",
   "status": "partial",
   "theorems": [
    "Mrcal.Cam.cahvore_fail_not_zero",
    "Mrcal.Cam.cahvore_fail_partial"
   ],
   "note": "Only half of each gradient array is cleared (sizeof of one row): negation proved, with the part that does hold"
  },
  {
   "property": "C56",
   "status": "proved",
   "theorems": [
    "Mrcal.Cam.project_succeeds",
    "Mrcal.Cam.project_pixels",
    "Mrcal.Cam.project_gradients",
    "Mrcal.Cam.project_gradients_i"
   ],
   "note": "Exact arithmetic. The splined models with Nx<32768: see C50 for the others. The error path (CAHVORE that can't be projected) is C55."
  },
  {
   "property": "C57",
   "status": "partial",
   "theorems": [
    "Mrcal.Cam.project_gradient_p_partial",
    "Mrcal.Cam.project_gradient_p_wrong",
    "Mrcal.Cam.project_gradient_p_counterexample"
   ],
   "note": "Right for N=1. Wrong for N>1: the pointer isn't advanced; negation proved"
  },
  {
   "property": "C58",
   "status": "partial",
   "theorems": [
    "Mrcal.Cam.unproject_direct",
    "Mrcal.Cam.unproject_projects_partial",
    "Mrcal.Cam.unproject_exact",
    "Mrcal.Cam.unproject_jacobian",
    "Mrcal.Cam.unproject_seed",
    "Mrcal.Cam.unproject_seed_opencv",
    "Mrcal.Cam.unproject_noncentral",
    "Mrcal.Cam.unproject_solver_failure",
    "Mrcal.Cam.unproject_solver_failure_counterexample",
    "Mrcal.Cam.unproject_invalid_z"
   ],
   "note": "Exact arithmetic. The solver is any function that reports the norm of the residual at the point it returns. Missing: a solver failure (negative norm) isn't noticed by the code, and the z of an invalid result isn't set: both negations proved"
  },
  {
   "property": "C59",
   "status": "partial",
   "theorems": [
    "Mrcal.Cam.unproject_cahvore_partial",
    "Mrcal.Cam.unproject_cahvore_wrong"
   ],
   "note": "Holds if the solution has z>=0. Otherwise the sign is flipped, which is wrong for this model: negation proved, for every solver"
  },
  {
   "property": "C32",
   "status": "proved",
   "theorems": [
    "Mrcal.Tri.geometric_closest"
   ],
   "note": "If and only if: success exactly if the rays are not parallel (|v0 x v1|^2 > 1e-10) and the ranges at the closest approach are positive, and then the result is the midpoint of the closest points. Exact arithmetic."
  },
  {
   "property": "C33",
   "status": "proved",
   "theorems": [
    "Mrcal.Tri.l1_coplanar",
    "Mrcal.Tri.l1_moves_one",
    "Mrcal.Tri.linf_coplanar",
    "Mrcal.Tri.l1_exact_partial",
    "Mrcal.Tri.linf_exact_partial"
   ],
   "note": "Corrected rays are coplanar with the baseline; L1 leaves one ray alone. Not-moved-if-intersecting is what l1_exact_partial and linf_exact_partial rest on. Assumes that a ray isn't along the baseline (for both rays along the baseline the code divides 0/0)."
  },
  {
   "property": "C34",
   "status": "partial",
   "theorems": [
    "Mrcal.Tri.geometric_exact_partial",
    "Mrcal.Tri.geometric_scale_wrong",
    "Mrcal.Tri.l1_exact_partial",
    "Mrcal.Tri.l1_sideways_wrong",
    "Mrcal.Tri.linf_exact_partial",
    "Mrcal.Tri.mid2_exact",
    "Mrcal.Tri.wmid2_exact",
    "Mrcal.Tri.lind_exact_partial",
    "Mrcal.Tri.lind_divisor",
    "Mrcal.Tri.lind_behind_wrong"
   ],
   "note": "mid2, wmid2: in full. The others have thresholds on unscaled quantities, so for all scalings of the vectors the claim is false: proved with witnesses (geometric_scale_wrong, l1_sideways_wrong, lind_behind_wrong); the _partial theorems have the threshold as a hypothesis."
  },
  {
   "property": "C35",
   "status": "proved",
   "theorems": [
    "Mrcal.Tri.relu_spec",
    "Mrcal.Tri.sigmoid_spec",
    "Mrcal.Tri.sigmoid_sharp",
    "Mrcal.Tri.triangulated_error_value",
    "Mrcal.Tri.triangulated_error_nonneg",
    "Mrcal.Tri.triangulated_error_convergent",
    "Mrcal.Tri.triangulated_error_perfect",
    "Mrcal.Tri.triangulated_error_gradient"
   ],
   "note": "Includes the full value of the triangulated error and its gradients with respect to v1 and t01, also at the transition between convergent and divergent. Not differentiable at the 3e-11 threshold below which an angle is reported as 0 (excluded)."
  },
  {
   "property": "C60",
   "status": "proved",
   "theorems": [
    "Mrcal.Tri.geometric_sentinel",
    "Mrcal.Tri.l1_sentinel",
    "Mrcal.Tri.linf_sentinel",
    "Mrcal.Tri.mid2_sentinel",
    "Mrcal.Tri.wmid2_sentinel",
    "Mrcal.Tri.lind_sentinel",
    "Mrcal.Tri.isConvergent_spec",
    "Mrcal.Tri.isConvergent_perfect",
    "Mrcal.Tri.isConvergent_behind"
   ],
   "note": "Exact arithmetic. The hypotheses exclude only degenerate input (both rays along the baseline) in L1, Linf."
  },
  {
   "property": "C61",
   "status": "proved",
   "theorems": [
    "Mrcal.Tri.l1_optimal",
    "Mrcal.Tri.linf_optimal"
   ],
   "note": "Angles by arccos of the normalised inner product; candidates are all pairs of rays coplanar with the baseline."
  },
  {
   "property": "C62",
   "status": "proved",
   "theorems": [
    "Mrcal.Tri.mid2_spec",
    "Mrcal.Tri.mid2_scale",
    "Mrcal.Tri.wmid2_spec",
    "Mrcal.Tri.wmid2_scale"
   ],
   "note": "The geometric, L1 and Lindstrom methods are not independent of the lengths: see C34."
  },
  {
   "property": "C63",
   "status": "proved",
   "theorems": [
    "Mrcal.Tri.geometric_gradient",
    "Mrcal.Tri.mid2_gradient",
    "Mrcal.Tri.wmid2_gradient",
    "Mrcal.Tri.l1_gradient",
    "Mrcal.Tri.linf_gradient",
    "Mrcal.Tri.lind_gradient"
   ],
   "note": "geometric, mid2, wmid2: everywhere a point is reported. L1, Linf, Lindstrom: away from the switches between branches, where the result isn't differentiable. The Lindstrom gradients are the gradients of what the code computes, which isn't what the paper has: see lind_step12_wrong in C64."
  },
  {
   "property": "C64",
   "status": "partial",
   "theorems": [
    "Mrcal.Tri.lind_step12_wrong",
    "Mrcal.Tri.lind_exact_partial"
   ],
   "note": "The code violates this: step 12 computes l/d*b' where the published listing (quoted in a comment of the code) has l*d/b'. Proved with a concrete witness: the rays corrected by the code are not coplanar with the baseline, those corrected with the documented expression are. For perfect observations there is no correction, and no difference."
  },
  {
   "property": "C36",
   "status": "partial",
   "theorems": [
    "Mrcal.Stereo.range_latlon",
    "Mrcal.Stereo.disparity_latlon",
    "Mrcal.Stereo.range_pinhole",
    "Mrcal.Stereo.disparity_pinhole",
    "Mrcal.Stereo.range_sparse",
    "Mrcal.Stereo.range_sparse_points",
    "Mrcal.Stereo.range_dense",
    "Mrcal.Stereo.stereo_range_int16",
    "Mrcal.Stereo.stereo_range_size",
    "Mrcal.Stereo.range_negative_wrong",
    "Mrcal.Stereo.stereo_range_float_wrong",
    "Mrcal.Stereo.stereo_range_int32_wrong"
   ],
   "note": "The C functions: in full for the disparities that real points produce. The code violates the rest, proved with witnesses: a large enough positive LATLON disparity gives a negative range (range_negative_wrong); mrcal.stereo_range() truncates floating-point dense disparity images to integers (stereo_range_float_wrong) and wraps negative int32 disparities into valid ones (stereo_range_int32_wrong)."
  },
  {
   "property": "C37",
   "status": "partial",
   "theorems": [
    "Mrcal.Stereo.rect_axes",
    "Mrcal.Stereo.rect_geometry",
    "Mrcal.Stereo.rect_rows",
    "Mrcal.Stereo.rect_along_wrong"
   ],
   "note": "Missing: the exclusion of a rotation whose rotation vector isn't computed exactly by the code (RectRepresentable: sin of the angle < 1e-8 but not 0). The degenerate case of cameras that look along the baseline is reported as a success with a non-finite pose: rect_along_wrong."
  },
  {
   "property": "C38",
   "status": "proved",
   "theorems": [
    "Mrcal.Stereo.rectification_maps",
    "Mrcal.Stereo.maps_failure_wrong"
   ],
   "note": "By induction over rows and columns. Proves more than asked: each map entry is the projection by the original camera of the world direction of the rectified pixel, and only the maps are written. The conversion to float isn't modelled. maps_failure_wrong: a CAHVORE projection that fails is reported as the pixel (0,0)."
  },
  {
   "property": "C65",
   "status": "proved",
   "theorems": [
    "Mrcal.Stereo.az_center",
    "Mrcal.Stereo.rect_view",
    "Mrcal.Stereo.rect_view_default",
    "Mrcal.Stereo.rect_noncentral"
   ],
   "note": ""
  },
  {
   "property": "C66",
   "status": "partial",
   "theorems": [
    "Mrcal.Stereo.rect_latlon",
    "Mrcal.Stereo.pinhole_cxy",
    "Mrcal.Stereo.rect_pinhole",
    "Mrcal.Stereo.rect_width_wrong",
    "Mrcal.Stereo.pinhole_fov_wrong"
   ],
   "note": "The numerical root finder is an oracle: the PINHOLE theorems assume that it finds exactly the real roots. The rejection of bad requests is violated by the code: an image with no columns is a success (rect_width_wrong), and a PINHOLE elevation field of view beyond 180deg silently produces 360deg minus that (pinhole_fov_wrong)."
  },
  {
   "property": "C67",
   "status": "proved",
   "theorems": [
    "Mrcal.Stereo.resolution_auto",
    "Mrcal.Stereo.dqDangle_deriv",
    "Mrcal.Stereo.centerRay_grad"
   ],
   "note": "Includes LONLAT, which the caller doesn't use. The LATLON and LONLAT resolutions are then rounded to get an integer image size, see C66."
  },
  {
   "property": "C68",
   "status": "partial",
   "theorems": [
    "Mrcal.Stereo.stereo_chain",
    "Mrcal.Stereo.rect_rows",
    "Mrcal.Stereo.unproject_latlon",
    "Mrcal.Stereo.unproject_pinhole"
   ],
   "note": "Exact arithmetic. Assumes that the rectified rotation is exactly representable as a rotation vector by the code (RectRepresentable), as in C37."
  },
  {
   "property": "C39",
   "status": "proved",
   "theorems": [
    "Mrcal.ModelFile.read_iff",
    "Mrcal.ModelFile.size_wrong",
    "Mrcal.ModelFile.sloppy_text"
   ],
   "note": "The grammar and the meaning are stated independently of the parser; numbers are exact (strtod() rounding isn't modelled), the locale has '.' as decimal point. The grammar is as sloppy as the code: quotes and brackets need not match, text after a NUL is ignored (sloppy_text), imager sizes wrap at 2^32 and several are accepted if the first widths are 0 (size_wrong). Not modelled: an int overflow of the parameter count of huge splined models; a first extrinsic equal to DBL_MAX, which the code takes as absent."
  },
  {
   "property": "C69",
   "status": "proved",
   "theorems": [
    "Mrcal.ModelFile.into_success",
    "Mrcal.ModelFile.into_too_small",
    "Mrcal.ModelFile.into_retry",
    "Mrcal.ModelFile.into_failure"
   ],
   "note": ""
  },
  {
   "property": "C70",
   "status": "proved",
   "theorems": [
    "Mrcal.ModelFile.write_read",
    "Mrcal.ModelFile.write_read_exact",
    "Mrcal.ModelFile.write_read_again",
    "Mrcal.ModelFile.write_read_wrong",
    "Mrcal.ModelFile.write_size_wrong"
   ],
   "note": "File I/O errors, rounding to double and -0.0 are not modelled. The precision that's lost is shown in write_read_wrong. Imagers of 2^31 or more are written but can't be read: write_size_wrong."
  },
  {
   "property": "C40",
   "status": "partial",
   "theorems": [
    "Mrcal.ImageIO.at_address",
    "Mrcal.ImageIO.crop_at",
    "Mrcal.ImageIO.bgr_rgb",
    "Mrcal.ImageIO.bgr_rgb_involution",
    "Mrcal.ImageIO.at_address_wrong"
   ],
   "note": "In full for 8-bit and 16-bit images with aligned strides, and for color images whose stride is a multiple of 3. The code addresses the wrong byte for color images with other strides: at_address_wrong. Overflow of the 32-bit products isn't modelled."
  },
  {
   "property": "C41",
   "status": "partial",
   "theorems": [
    "Mrcal.ColorMap.formula_documented",
    "Mrcal.ColorMap.auto_min",
    "Mrcal.ColorMap.auto_max",
    "Mrcal.ColorMap.auto_bounds_integer",
    "Mrcal.ColorMap.given_bounds",
    "Mrcal.ColorMap.fraction_lin",
    "Mrcal.ColorMap.exact_uint",
    "Mrcal.ColorMap.exact_int",
    "Mrcal.ColorMap.exact_float",
    "Mrcal.ColorMap.color_map",
    "Mrcal.ColorMap.color_map_default",
    "Mrcal.ColorMap.color_map_rejects",
    "Mrcal.ColorMap.auto_max_float_wrong",
    "Mrcal.ColorMap.int32_wrong"
   ],
   "note": "In full for unsigned and small integer types, and for the others if the difference of the bounds fits the type. The code violates the rest: the automatic upper bound of float images without positive values isn't the maximum (auto_max_float_wrong), differences of int32 overflow (int32_wrong). Exact arithmetic."
  },
  {
   "property": "C71",
   "status": "partial",
   "theorems": [
    "Mrcal.ImageIO.save_accepts",
    "Mrcal.ImageIO.save_gray",
    "Mrcal.ImageIO.save_color",
    "Mrcal.ImageIO.save_gray16_partial",
    "Mrcal.ImageIO.save_gray16_wrong"
   ],
   "note": "In full for 8-bit and color images. 16-bit .pgm files have the bytes of each value exchanged: save_gray16_partial, save_gray16_wrong. The png and jpg libraries aren't modelled; I/O errors aren't either."
  },
  {
   "property": "C72",
   "status": "proved",
   "theorems": [
    "Mrcal.ImageIO.load_accepts",
    "Mrcal.ImageIO.load_gray",
    "Mrcal.ImageIO.load_gray16",
    "Mrcal.ImageIO.load_color",
    "Mrcal.ImageIO.save_load"
   ],
   "note": "stb_image and libpng aren't modelled: they are assumed to decode what was encoded."
  },
  {
   "property": "C73",
   "status": "partial",
   "theorems": [
    "Mrcal.ImageIO.stretch_partial",
    "Mrcal.ImageIO.load_stretch_partial",
    "Mrcal.ImageIO.stretch_wrong"
   ],
   "note": "Proved for images that aren't constant, where the largest value isn't only in the first pixel. The code violates the rest: stretch_wrong. float rounding isn't modelled."
  },
  {
   "property": "C74",
   "status": "proved",
   "theorems": [
    "Mrcal.Callback.callback_rows_right",
    "Mrcal.Callback.callback_jacobian",
    "Mrcal.Callback.callback_partials",
    "Mrcal.Callback.cost_gradient",
    "Mrcal.Callback.board_row_right",
    "Mrcal.Callback.point_row_right",
    "Mrcal.Callback.tri_row_right",
    "Mrcal.Callback.reg_rows_right"
   ],
   "note": "exact real arithmetic. Differentiability hypotheses (RegularAt) are spelled out per measurement: rotations either 0 or not tiny, the lens model's singular points excluded, the triangulation away from its thresholds. Two triangulated inlier observations of the same point by cameras that are both at the reference are excluded: the code dereferences NULL there"
  },
  {
   "property": "C75",
   "status": "partial",
   "theorems": [
    "Mrcal.Procrustes.vectors_optimal",
    "Mrcal.Procrustes.vectors_api",
    "Mrcal.Procrustes.vectors_contiguous",
    "Mrcal.Procrustes.vectors_parallel_error",
    "Mrcal.Procrustes.vectors_unique_partial",
    "Mrcal.Procrustes.vectors_unique_wrong"
   ],
   "note": "Optimality, agreement of the two implementations and the errors for vectors along one line are proved in full, given the contract of the decomposition (LapackOk, NumpyOk: if it succeeds then it's a singular value decomposition with sorted values). Uniqueness is proved if the correlation matrix has a non-negative determinant; the code violates the rest: a success is reported for vectors whose optimal rotation isn't unique (vectors_unique_wrong). Exact arithmetic"
  },
  {
   "property": "C76",
   "status": "partial",
   "theorems": [
    "Mrcal.Procrustes.points_optimal_partial",
    "Mrcal.Procrustes.points_balanced_partial",
    "Mrcal.Procrustes.points_contiguous",
    "Mrcal.Procrustes.points_collinear_error",
    "Mrcal.Procrustes.points_weighted_wrong",
    "Mrcal.Procrustes.points_scale_wrong"
   ],
   "note": "Without weights: optimality in full. With weights the code violates the claim (points_weighted_wrong): the means aren't weighted, and the cost is with w instead of the documented w^2; optimality with that cost is proved for weights that don't move the means. The check for singular problems has an absolute threshold: tiny but well-defined problems are rejected (points_scale_wrong)"
  },
  {
   "property": "C77",
   "status": "partial",
   "theorems": [
    "Mrcal.Uncertainty.cross_reprojection_optimal",
    "Mrcal.Uncertainty.cross_reprojection_succeeds_iff",
    "Mrcal.Uncertainty.pose_velocity",
    "Mrcal.Uncertainty.point_velocity",
    "Mrcal.Uncertainty.boards_points_warp_fail_wrong",
    "Mrcal.Uncertainty.points_only_fail_wrong",
    "Mrcal.Uncertainty.warp_point_observations_fail_wrong",
    "Mrcal.Uncertainty.empty_row_fail_wrong"
   ],
   "note": "Optimality, uniqueness and the exact conditions of success are proved in full for Jacobians that the modelled optimizer callback produces, given the contract of LAPACK's Cholesky functions (LapackOk). The code violates the natural conditions of success: problems with optimized points and an optimized board shape, points-only problems with fixed cameras, and problems with empty Jacobian rows are rejected (_wrong). Exact arithmetic"
  },
  {
   "property": "C78",
   "status": "proved",
   "theorems": [
    "Mrcal.Propagate.covariance_correct",
    "Mrcal.Propagate.propagate_succeeds_iff",
    "Mrcal.Propagate.response_exists_unique",
    "Mrcal.Propagate.mean_zero"
   ],
   "note": "For the Jacobian that the modelled optimizer callback produces; CHOLMOD is a parameter with a contract (CholmodOk: an LDL' factorization with a permutation), and exCholmod_ok shows that the contract can be met. The change of the optimum is to first order, as documented. Broadcasting over slices isn't modelled. Exact arithmetic"
  },
  {
   "property": "C79",
   "status": "proved",
   "theorems": [
    "Mrcal.Propagate.worst_direction_correct",
    "Mrcal.Propagate.worst_direction_reported",
    "Mrcal.Propagate.rms_stdev"
   ],
   "note": "Eigenvalues of matrices larger than 2x2 come from scipy: a parameter with a contract (EigshOk). Exact arithmetic"
  },
  {
   "property": "C80",
   "status": "proved",
   "theorems": [
    "Mrcal.Propagate.estimate_formula",
    "Mrcal.Propagate.estimate_mean",
    "Mrcal.Propagate.estimate_biased_wrong"
   ],
   "note": "estimate_biased_wrong: with regularization the estimate is biased (the code says that it ignores this). If there aren't more inliers than states, then numpy produces inf or nan with a warning; here that's 'not available'. To first order in the noise; exact arithmetic"
  },
  {
   "property": "C81",
   "status": "proved",
   "theorems": [
    "Mrcal.ProjUnc.gradient_correct",
    "Mrcal.ProjUnc.uncertainty_covariance",
    "Mrcal.ProjUnc.uncertainty_worst_direction",
    "Mrcal.ProjUnc.uncertainty_rms",
    "Mrcal.ProjUnc.redone_exists",
    "Mrcal.ProjUnc.infinity_direction",
    "Mrcal.ProjUnc.infinity_gradient",
    "Mrcal.ProjUnc.infinity_covariance"
   ],
   "note": "LAPACK, CHOLMOD and eigsh by contract; exact arithmetic; first order in the noise; the lens must be differentiable at the point; rotations of 0 < |r| < 1e-5 are excluded for the two older methods (C12); at infinity CAHVORE is excluded. In cross-reprojection-ccp with camera poses that are fixed away from the reference, the transformation is one of the reference coordinates, but it's applied in camera coordinates: the specification (Explains) says what's computed, and this case isn't what's documented (DESIGN.md)"
  },
  {
   "property": "C82",
   "status": "partial",
   "theorems": [
    "Mrcal.ProjUnc.uncertainty_available",
    "Mrcal.ProjUnc.gradient_available",
    "Mrcal.ProjUnc.fixed_intrinsics_wrong",
    "Mrcal.ProjUnc.fixed_extrinsics_wrong"
   ],
   "note": "The exact conditions are proved (each measurement must depend on something). The code violates the claim: with fixed intrinsics no method works, and with fixed poses of a non-reference camera only cross-reprojection-ccp does"
  },
  {
   "property": "C83",
   "status": "proved",
   "theorems": [
    "Mrcal.CamModel.pose_set_get",
    "Mrcal.CamModel.pose_default",
    "Mrcal.CamModel.pose_only"
   ],
   "note": "Exact arithmetic. The range of the approximations is excluded in ValidPose."
  },
  {
   "property": "C84",
   "status": "partial",
   "theorems": [
    "Mrcal.CamModel.consistent",
    "Mrcal.CamModel.consistent_unset",
    "Mrcal.CamModel.set_accepted",
    "Mrcal.CamModel.failed_set_partial",
    "Mrcal.CamModel.failed_set_wrong",
    "Mrcal.CamModel.region_set",
    "Mrcal.CamModel.copy_partial",
    "Mrcal.CamModel.copy_wrong",
    "Mrcal.CamModel.construct_parts",
    "Mrcal.CamModel.construct_inputs"
   ],
   "note": "Sequences of calls without exceptions are proved in full. Not true for calls that raise: failed_set_wrong shows a call that raises an exception and leaves the new intrinsics with the old optimization inputs. copy_wrong: optimization_inputs() of a copied model always raises an exception. corresponding_icam_extrinsics() is a parameter."
  },
  {
   "property": "C85",
   "status": "partial",
   "theorems": [
    "Mrcal.CamModel.inputs_roundtrip",
    "Mrcal.CamModel.inputs_stable",
    "Mrcal.CamModel.call_succeeds",
    "Mrcal.CamModel.old_name_wrong"
   ],
   "note": "np.savez_compressed() with base-85 are a parameter that's lossless (CodecOk; exCodec_ok is one). Dicts that use the names of older versions are excluded: old_name_wrong shows that the poses are lost if the new name is also present as None."
  },
  {
   "property": "C86",
   "status": "partial",
   "theorems": [
    "Mrcal.ModelPy.write_read",
    "Mrcal.ModelPy.write_read_write",
    "Mrcal.ModelPy.write_read_exact",
    "Mrcal.ModelPy.legacy_read",
    "Mrcal.ModelPy.read_pose",
    "Mrcal.ModelPy.reset_write_read_wrong",
    "Mrcal.ModelPy.write_read_digits_wrong"
   ],
   "note": "Proved for all models that have both the optimization inputs and a camera index, or neither. Not true otherwise: reset_write_read_wrong shows that after optimization_inputs_reset() write() produces a file that can't be read. Regions must be exactly closed (regions that are only almost closed are not covered). Numbers are rationals: infinities and NaN are not modelled. The base-85 text is any text of printable characters without quotes."
  },
  {
   "property": "C87",
   "status": "partial",
   "theorems": [
    "Mrcal.ModelPy.c_reads_python",
    "Mrcal.ModelPy.python_reads_c",
    "Mrcal.ModelPy.large_region_wrong",
    "Mrcal.ModelPy.height_zero_wrong",
    "Mrcal.ModelPy.carriage_return_wrong"
   ],
   "note": "Proved for regions with coordinates up to 1e9 and imagers that have rows. large_region_wrong, height_zero_wrong: not true otherwise. carriage_return_wrong: a hand-edited text that both readers accept, where they see different models. Backslashes, None, True, False in the literals are not modelled: these are not written."
  },
  {
   "property": "C88",
   "status": "partial",
   "theorems": [
    "Mrcal.CahvorFile.written_equations",
    "Mrcal.CahvorFile.write_succeeds_iff",
    "Mrcal.CahvorFile.read_pose",
    "Mrcal.CahvorFile.read_equations",
    "Mrcal.CahvorFile.read_succeeds_iff",
    "Mrcal.CahvorFile.write_read_partial",
    "Mrcal.CahvorFile.write_read_wrong",
    "Mrcal.CahvorFile.integer_axis_wrong",
    "Mrcal.CahvorFile.empty_region_wrong"
   ],
   "note": "The content of the file is modelled, with exact numbers: the text, and the rounding to 10 decimals isn't. write_read_partial: for CAHVOR distortions that are either 0 or at least 1e-8 (write_read_wrong: smaller ones are dropped), and regions that aren't empty (empty_region_wrong: these can't be read). read_equations: for files with unit vectors A and O; the vertical coordinate for files with orthogonal axes. CAHVORE has no separate statement of the equations here: the lens itself is the one in C54-C56."
  },
  {
   "property": "C89",
   "status": "partial",
   "theorems": [
    "Mrcal.RosFile.read_iff",
    "Mrcal.RosFile.read_ambiguous",
    "Mrcal.RosFile.read_rectified",
    "Mrcal.RosFile.write_succeeds_iff",
    "Mrcal.RosFile.write_read_partial",
    "Mrcal.RosFile.pose_wrong",
    "Mrcal.RosFile.rectification_wrong",
    "Mrcal.RosFile.mirror_wrong"
   ],
   "note": "The yaml and json parsers, and the printing of numbers, are not modelled: the model starts at the dictionary. Not true in general: pose_wrong (the pose isn't written), rectification_wrong (the rotation is ignored if it has the name that ROS files use), mirror_wrong (a mirror is accepted as a rotation)."
  },
  {
   "property": "C90",
   "status": "proved",
   "theorems": [
    "Mrcal.Quaternion.R_from_quat_meaning",
    "Mrcal.Quaternion.R_from_quat_rotation_iff",
    "Mrcal.Quaternion.R_from_quat_compose",
    "Mrcal.Quaternion.quat_from_R_unit",
    "Mrcal.Quaternion.quat_from_R_iff",
    "Mrcal.Quaternion.quat_R_quat",
    "Mrcal.Quaternion.R_from_quat_eq_iff",
    "Mrcal.Quaternion.R_from_quat_angle_axis",
    "Mrcal.Quaternion.quat_from_R_angle_axis",
    "Mrcal.Quaternion.Rt_qt_Rt",
    "Mrcal.Quaternion.qt_Rt_qt",
    "Mrcal.Quaternion.scalar_part_wrong"
   ],
   "note": "Exact arithmetic; one broadcasted slice. scalar_part_wrong: the scalar part can be negative, so the documented angle can exceed 180 degrees."
  },
  {
   "property": "C91",
   "status": "partial",
   "theorems": [
    "Mrcal.ImageTransform.map_meaning",
    "Mrcal.ImageTransform.map_unseen",
    "Mrcal.ImageTransform.map_succeeds_iff",
    "Mrcal.ImageTransform.opencv_same_partial",
    "Mrcal.ImageTransform.along_sees",
    "Mrcal.ImageTransform.infinity_limit",
    "Mrcal.ImageTransform.opencv_same_wrong",
    "Mrcal.ImageTransform.plane_sign_wrong"
   ],
   "note": "Exact arithmetic; OpenCV's map is modelled from its documentation. opencv_same_wrong: the OpenCV path ignores relative rotations of up to 1e-6. plane_sign_wrong: a plane described with a negative plane_d is seen in the opposite direction."
  },
  {
   "property": "C92",
   "status": "partial",
   "theorems": [
    "Mrcal.ImageTransform.scale_best_partial",
    "Mrcal.ImageTransform.fit_visible_partial",
    "Mrcal.ImageTransform.pinhole_model_meaning",
    "Mrcal.ImageTransform.scale_image_partial",
    "Mrcal.ImageTransform.scale_image_inside",
    "Mrcal.ImageTransform.axis_wrong",
    "Mrcal.ImageTransform.center_wrong"
   ],
   "note": "axis_wrong: a ray with x=0 makes the scale -infinity. center_wrong: cx=0 becomes NaN if the image is scaled."
  },
  {
   "property": "C93",
   "status": "partial",
   "theorems": [
    "Mrcal.UnprojectPy.direct_gradients",
    "Mrcal.UnprojectPy.main_gradients",
    "Mrcal.UnprojectPy.main_gradients_normalized",
    "Mrcal.UnprojectPy.main_exists",
    "Mrcal.UnprojectPy.smooth_ocv_cahvor",
    "Mrcal.UnprojectPy.normalized_orthogonal",
    "Mrcal.UnprojectPy.same_vectors_partial",
    "Mrcal.UnprojectPy.failed_wrong"
   ],
   "note": "Missing: CAHVORE when normalized; the joint smoothness of the splined models is a hypothesis. failed_wrong: a pixel that can't be unprojected is (0,0,0) with normalize=True, and NaN with gradients."
  },
  {
   "property": "C94",
   "status": "partial",
   "theorems": [
    "Mrcal.TriPy.returned",
    "Mrcal.TriPy.zero_noise",
    "Mrcal.TriPy.points_meaning",
    "Mrcal.TriPy.call_forms",
    "Mrcal.TriPy.same_points",
    "Mrcal.TriPy.exact_point",
    "Mrcal.TriPy.calibration_covariance",
    "Mrcal.TriPy.observation_covariance",
    "Mrcal.TriPy.joint_covariance",
    "Mrcal.TriPy.available",
    "Mrcal.TriPy.calibration_required",
    "Mrcal.TriPy.calibration_accepted",
    "Mrcal.TriPy.available_observation",
    "Mrcal.TriPy.point_moves",
    "Mrcal.TriPy.core_only_wrong",
    "Mrcal.TriPy.lindstrom_wrong",
    "Mrcal.TriPy.failed_variance_wrong"
   ],
   "note": "Missing: equal (or almost equal) non-zero rotations of both cameras; q_calibration_stdev<0; same_points for geometric, l1, linf with the iterative lens models. Rounding and the tolerance of unproject() are not modelled. Negations: core_only_wrong (a distortion-free lens model, when distortions are not optimized: the uncertainty raises an exception), lindstrom_wrong (no uncertainties), failed_variance_wrong (a failed triangulation has covariance 0). point_moves: the moves in the hypotheses exist for the directly-unprojected models."
  },
  {
   "property": "C95",
   "status": "partial",
   "theorems": [
    "Mrcal.ModelDiff.grid_points",
    "Mrcal.ModelDiff.grid_inside",
    "Mrcal.ModelDiff.grid_corners_partial",
    "Mrcal.ModelDiff.grid_square",
    "Mrcal.ModelDiff.residual_r_right",
    "Mrcal.ModelDiff.residual_rt_right",
    "Mrcal.ModelDiff.invalid_ignored",
    "Mrcal.ModelDiff.valid_used",
    "Mrcal.ModelDiff.terms_mem",
    "Mrcal.ModelDiff.fit_infinity_partial",
    "Mrcal.ModelDiff.fit_finite_partial",
    "Mrcal.ModelDiff.fit_accepted",
    "Mrcal.ModelDiff.grid_corner_wrong",
    "Mrcal.ModelDiff.fit_same_wrong"
   ],
   "note": "Missing: the true transformation and the one found may not be a nonzero rotation by less than 1e-5 radians: rotate_point_r() isn't a rotation there, so the fit of a camera to itself may find a nonzero rotation (fit_same_wrong). The solver (scipy) is any function that is optimal. grid_corner_wrong: with one column the documented bottom-right corner isn't in the grid."
  },
  {
   "property": "C96",
   "status": "partial",
   "theorems": [
    "Mrcal.ModelDiff.diff_meaning",
    "Mrcal.ModelDiff.transform_chosen",
    "Mrcal.ModelDiff.diff_extrinsics",
    "Mrcal.ModelDiff.diff_intrinsics",
    "Mrcal.ModelDiff.diff_self",
    "Mrcal.ModelDiff.diff_fit_infinity_partial",
    "Mrcal.ModelDiff.diff_fit_finite_partial",
    "Mrcal.ModelDiff.many_rms",
    "Mrcal.ModelDiff.fit_weights",
    "Mrcal.ModelDiff.focus_region",
    "Mrcal.ModelDiff.reference_free",
    "Mrcal.ModelDiff.accepted",
    "Mrcal.ModelDiff.cahvore_diff_partial",
    "Mrcal.ModelDiff.ray_cases",
    "Mrcal.ModelDiff.infinity_extrinsics_wrong",
    "Mrcal.ModelDiff.failed_reported_wrong",
    "Mrcal.ModelDiff.tiny_wrong"
   ],
   "note": "The fits are partial as in C95 (rotations by less than 1e-5 radians). CAHVORE is proved for |E|^2 at least 1e-12 only: tiny_wrong shows that models with a smaller nonzero E always raise an exception, although the code says that it treats them as central. infinity_extrinsics_wrong: with the default distance (infinity) and focus_radius=0 the translation is applied at a distance of 1. failed_reported_wrong: pixels that cannot be unprojected are reported with a number. With use_uncertainties=True the fit is given the documented weights (fit_weights); that it finds the true transformation is stated for equal weights; the uncertainties themselves are an oracle."
  },
  {
   "property": "C97",
   "status": "proved",
   "theorems": [
    "Mrcal.ModelDiff.pair_reproject",
    "Mrcal.ModelDiff.pair_diff_meaning",
    "Mrcal.ModelDiff.pair_reference_free",
    "Mrcal.ModelDiff.pair_same",
    "Mrcal.ModelDiff.pair_round_trip",
    "Mrcal.ModelDiff.pair_accepted",
    "Mrcal.ModelDiff.pair_cahvore_wrong"
   ],
   "note": "Pixels that cannot be unprojected are as in failed_reported_wrong (C96). Noncentral models are excluded: pair_cahvore_wrong shows that they always raise an exception (np.norm2 does not exist), although the code says that they are acceptable at infinity."
  },
  {
   "property": "C98",
   "status": "proved",
   "theorems": [
    "Mrcal.Resolution.resolution_meaning",
    "Mrcal.Resolution.resolution_clamped",
    "Mrcal.Resolution.resolution_succeeds",
    "Mrcal.Resolution.resolution_single_wrong"
   ],
   "note": "resolution_single_wrong: one pixel of shape (2,) raises an exception although the documentation says that broadcasting is fully supported. The unprojection is exact where C93 says so."
  },
  {
   "property": "C99",
   "status": "partial",
   "theorems": [
    "Mrcal.Corners.frames_meaning",
    "Mrcal.Corners.frames_padded",
    "Mrcal.Corners.frames_single",
    "Mrcal.Corners.mapping_meaning",
    "Mrcal.Corners.mapping_accepted",
    "Mrcal.Corners.mapping_sequential",
    "Mrcal.Corners.frames_unpadded_wrong"
   ],
   "note": "frames_meaning is about all the file names of the form string, number, string; mapping_meaning about the whole mapping. frames_unpadded_wrong: file names of the documented form aren't always accepted. Newlines in file names aren't modelled"
  },
  {
   "property": "C100",
   "status": "partial",
   "theorems": [
    "Mrcal.Corners.point_meaning",
    "Mrcal.Corners.corners_points",
    "Mrcal.Corners.corners_frames",
    "Mrcal.Corners.corners_synchronized",
    "Mrcal.Corners.corners_accepted",
    "Mrcal.Corners.corners_described",
    "Mrcal.Corners.corners_path",
    "Mrcal.Corners.corners_min_wrong",
    "Mrcal.Corners.corners_nan_wrong",
    "Mrcal.Corners.corners_path_wrong"
   ],
   "note": "With an existing cache file; running mrgingham isn't modelled. float(), fnmatch and the os functions are arbitrary functions. The reported images have different paths (if several have the same path, the last one is reported). corners_min_wrong: images with exactly the minimal number of corners are thrown out. corners_nan_wrong: NaN coordinates are reported as valid. corners_path_wrong: a file in the current directory has its images at the root"
  },
  {
   "property": "C101",
   "status": "partial",
   "theorems": [
    "Mrcal.Seed.seed_exact",
    "Mrcal.Seed.seed_numbered_partial",
    "Mrcal.Seed.seed_numbered_wrong",
    "Mrcal.Seed.seed_accepted_partial",
    "Mrcal.Seed.seed_accepted_wrong",
    "Mrcal.Seed.seed_order_wrong",
    "Mrcal.Seed.seed_connected"
   ],
   "note": "seed_exact: for a chessboard spacing of at least 2e-6 units (the fit reports smaller clouds as singular, and the all-0 result is used) and rotations outside of the small-angle approximations of the Rodrigues vectors. seed_numbered_partial: the pose i is of frame i only if no frame is missing (seed_numbered_wrong). seed_accepted_partial: needs the cameras in order within each frame (seed_order_wrong) and fewer than 65536 shared frames for each pair: the counts are 16-bit (seed_accepted_wrong). seed_connected: disconnected cameras are rejected. The singular value decomposition exists for each matrix: svd_exists, so that the contracts assumed of LAPACK and numpy can be met. Not covered: noisy poses (only that each fit is optimal: C75); the poses in respect to each camera come from solvePnP, which is not modelled here."
  },
  {
   "property": "C102",
   "status": "partial",
   "theorems": [
    "Mrcal.Pnp.pose_exact_partial",
    "Mrcal.Pnp.pose_exact_wrong",
    "Mrcal.Pnp.pose_front",
    "Mrcal.Pnp.seed_stereographic_exact_partial",
    "Mrcal.Pnp.seed_stereographic_accepted",
    "Mrcal.Pnp.seed_stereographic_focals"
   ],
   "note": "pose_exact_partial: the pose from one exact image is the true one: the weighted corners determine it (four corners, no three of them collinear; the camera not in the plane of the chessboard), for every solver that meets the contract SolvesPnP, which can be met (anySolve_ok). Needs the first corner to be in front of the camera: else the true pose is never returned (pose_exact_wrong). pose_front: whatever is returned has the first corner in front. seed_stereographic_exact_partial and seed_stereographic_accepted: all of seed_stereographic(), with the limits of C101. Not covered: noisy images, the retries with other focal lengths; cv2.solvePnP is assumed."
  },
  {
   "property": "C103",
   "status": "partial",
   "theorems": [
    "Mrcal.Perfect.hypothesis_meaning",
    "Mrcal.Perfect.perfect_measurements",
    "Mrcal.Perfect.noisy_measurements",
    "Mrcal.Perfect.mask_changed_wrong",
    "Mrcal.Perfect.outliers_lost_wrong"
   ],
   "note": "hypothesis_meaning: all the returned arrays. perfect_measurements: without noise all measurements are 0, for inputs where the callback is regular (C74). noisy_measurements: with noise. False in the code: a given idx_inliers array is modified if a camera is requested (mask_changed_wrong); if noise is added the weight of each outlier becomes 1, so outliers are inliers afterwards (outliers_lost_wrong). Exact arithmetic; observations_board is given."
  },
  {
   "property": "C104",
   "status": "partial",
   "theorems": [
    "Mrcal.Kalibr.read_chain",
    "Mrcal.Kalibr.read_inline",
    "Mrcal.Kalibr.read_which",
    "Mrcal.Kalibr.inline_which",
    "Mrcal.Kalibr.near_identity",
    "Mrcal.Kalibr.write_chain",
    "Mrcal.Kalibr.round_trip_partial",
    "Mrcal.Kalibr.graft_radius_0",
    "Mrcal.Kalibr.graft_implied",
    "Mrcal.Kalibr.first_dropped_wrong",
    "Mrcal.Kalibr.mirror_wrong"
   ],
   "note": "read_chain, read_inline, read_which: exactly which files are accepted, and what is read. write_chain: what the matrices in a written file mean. round_trip_partial: all cameras, for each combination of --cam0-at-reference in the two tools. False in the code: a first camera with a pose within 1e-6 of the identity is read at the identity (first_dropped_wrong); mirrored cameras are accepted (mirror_wrong). Not covered: the yaml text; CAHVORE with a negative linearity; CAHVOR with |R|<1e-8 but not 0. Exact arithmetic."
  },
  {
   "property": "C105",
   "status": "proved",
   "theorems": [
    "Mrcal.CornerTools.rotate_accepts",
    "Mrcal.CornerTools.rotate_meaning",
    "Mrcal.CornerTools.turned_total",
    "Mrcal.CornerTools.rotate_back",
    "Mrcal.CornerTools.select_meaning"
   ],
   "note": "rotate_accepts: exactly which files. rotate_meaning: where each line ends up (by turned_total every place is filled). rotate_back: the turn back. select_meaning: which option applies. Not covered: the regular expression that splits a line; the order of sort(1) is an arbitrary linear order of the names."
  },
  {
   "property": "C106",
   "status": "partial",
   "theorems": [
    "Mrcal.CornerTools.cull_lines",
    "Mrcal.CornerTools.cull_left",
    "Mrcal.CornerTools.level_written",
    "Mrcal.CornerTools.cull_radius_partial",
    "Mrcal.CornerTools.cull_board_partial",
    "Mrcal.CornerTools.random_images_partial",
    "Mrcal.CornerTools.level_survives",
    "Mrcal.CornerTools.left_equal_wrong",
    "Mrcal.CornerTools.rad_negative_wrong",
    "Mrcal.CornerTools.board_missing_wrong",
    "Mrcal.CornerTools.random_level0_wrong"
   ],
   "note": "cull_lines: nothing but the level changes. cull_left, cull_radius_partial, cull_board_partial: exactly which corners are thrown out. random_images_partial, level_survives: the images that were picked, in their order, with all their corners. False in the code: x = X is thrown out by --cull-left-of (left_equal_wrong); D < -diagonal/2 keeps the center (rad_negative_wrong); corners that weren't found aren't counted in the board (board_missing_wrong); --cull-random-observations-ratio takes the levels for weights, so that all corners at level 0, the best ones, are marked as not detected (random_level0_wrong, level_survives). Exact arithmetic; the text of the lines is not modelled."
  },
  {
   "property": "C107",
   "status": "partial",
   "theorems": [
    "Mrcal.IndexApi.state_api_partial",
    "Mrcal.IndexApi.state_blocks_partial",
    "Mrcal.IndexApi.state_absent_partial",
    "Mrcal.IndexApi.lensmodel_checked",
    "Mrcal.IndexApi.measurement_api_partial",
    "Mrcal.IndexApi.measurement_blocks_partial",
    "Mrcal.IndexApi.num_measurements_none_wrong",
    "Mrcal.IndexApi.negative_fixed_wrong"
   ],
   "note": "Missing: the deprecated names of the poses (optimize() ignores those: C42); Npoints_fixed<0, which optimize() accepts though the state then has more points than were given (negative_fixed_wrong); num_measurements() given None for the indices of the triangulated points, which uses None as an array (num_measurements_none_wrong). The index functions don't check the bounds of a board or point observation index."
  },
  {
   "property": "C108",
   "status": "partial",
   "theorems": [
    "Mrcal.IngestState.ingest_partial",
    "Mrcal.IngestState.columns_wrong",
    "Mrcal.IngestState.points_wrong",
    "Mrcal.IngestState.distortions_wrong",
    "Mrcal.IngestState.size_checked"
   ],
   "note": "Proved for: at most one camera, or the core and the distortions both being optimized or both locked; with at least one fixed point if there are points; not with a distortion-free lens model whose distortions are locked. Each excluded case is a bug, proved: the intrinsics are silently not updated (ravel() of a non-contiguous slice is a copy), or there's an exception ([:-0] is empty). The deprecated names of the poses are out of scope."
  },
  {
   "property": "C109",
   "status": "partial",
   "theorems": [
    "Mrcal.Synthesize.synthesized",
    "Mrcal.Synthesize.ends",
    "Mrcal.Synthesize.which_checked",
    "Mrcal.Synthesize.fewer_frames",
    "Mrcal.Synthesize.behind_wrong"
   ],
   "note": "Proved with visible meaning that the pixel coordinates are finite and within the imager. That isn't sufficient: a board behind the camera counts as visible (behind_wrong). 'Half' is proved as more than half: a board with exactly half of its corners in view is left out, unlike the documentation says."
  },
  {
   "property": "C110",
   "status": "partial",
   "theorems": [
    "Mrcal.MatchFeature.match_found",
    "Mrcal.MatchFeature.match_none",
    "Mrcal.MatchFeature.corners_inside",
    "Mrcal.MatchFeature.surface_exact",
    "Mrcal.MatchFeature.stationary_extremum",
    "Mrcal.MatchFeature.best_reported",
    "Mrcal.MatchFeature.shift_found",
    "Mrcal.MatchFeature.symmetric_exact",
    "Mrcal.MatchFeature.args_checked",
    "Mrcal.MatchFeature.template_inside_partial",
    "Mrcal.MatchFeature.template_edge_wrong",
    "Mrcal.MatchFeature.template_projective_wrong",
    "Mrcal.MatchFeature.saddle_wrong",
    "Mrcal.MatchFeature.degenerate_wrong"
   ],
   "note": "Missing, because it isn't so: the stationary point isn't always a maximum, nor near the best score (saddle_wrong), and without one, a q1 that isn't finite is returned instead of None (degenerate_wrong). The check of the template in image0 accepts up to one pixel past the last one (template_edge_wrong), and checks the corners only, which isn't sufficient if the homography isn't affine (template_projective_wrong)."
  },
  {
   "property": "C111",
   "status": "partial",
   "theorems": [
    "Mrcal.Solve.optimize_total",
    "Mrcal.Solve.divergence_rays",
    "Mrcal.Solve.solved_reproducible",
    "Mrcal.Solve.cost_not_increased",
    "Mrcal.Solve.solved_rms",
    "Mrcal.Solve.outliers_only_added",
    "Mrcal.Solve.failed_arrays_unchanged",
    "Mrcal.Solve.solved_arrays",
    "Mrcal.Solve.solved_no_outliers_left",
    "Mrcal.Solve.solved_counts",
    "Mrcal.Solve.optimize_succeeds",
    "Mrcal.Solve.optimize_refuses",
    "Mrcal.Solve.python_sizes_fit",
    "Mrcal.Solve.python_reproducible_partial",
    "Mrcal.Solve.callback_refuses_iff",
    "Mrcal.Solve.divergence_test_uses_seed_wrong",
    "Mrcal.Solve.failed_marks_kept_wrong",
    "Mrcal.Solve.python_tri_outliers_lost_wrong",
    "Mrcal.Solve.rms_documented_wrong",
    "Mrcal.Solve.tri_outliers_not_counted_wrong",
    "Mrcal.Solve.check_gradient_wrong"
   ],
   "note": "Missing, because it isn't so: the divergence test of triangulated points looks at the poses given by the caller, not at the solution (divergence_test_uses_seed_wrong). After a failure the outlier marks of the earlier passes stay (failed_marks_kept_wrong). In python the marks on triangulated points are lost, so the residuals aren't reproduced (python_tri_outliers_lost_wrong; python_reproducible_partial without such points). The RMS isn't the documented one (rms_documented_wrong), nor is Noutliers_triangulated_point (tri_outliers_not_counted_wrong). check_gradient dereferences NULL, or reports NaN (check_gradient_wrong). libdogleg is any function with the stated properties."
  },
  {
   "property": "C112",
   "status": "partial",
   "theorems": [
    "Mrcal.Polyline.domain_cubic",
    "Mrcal.Polyline.domain_quad_partial",
    "Mrcal.Polyline.domain_quad_wrong",
    "Mrcal.Polyline.domain_other",
    "Mrcal.Polyline.densify_partial",
    "Mrcal.Polyline.densify_trivial",
    "Mrcal.Polyline.densify_short_wrong",
    "Mrcal.Polyline.densify_spacing_wrong",
    "Mrcal.Polyline.densify_single_wrong"
   ],
   "note": "Missing, because it isn't so: with order 2 and 3 knots horizontally the contour isn't closed and misses a part of the boundary (domain_quad_wrong). Segments shorter than a millionth of the spacing are dropped, so a finely sampled polyline of any length comes back as one point (densify_short_wrong). A step may be longer than the spacing, by less than a millionth of it (densify_spacing_wrong). A single point comes back with shape (2,) (densify_single_wrong)."
  },
  {
   "property": "C113",
   "status": "partial",
   "theorems": [
    "Mrcal.Ply.write_accepts_iff",
    "Mrcal.Ply.binary_readable",
    "Mrcal.Ply.ascii_readable_partial",
    "Mrcal.Ply.write_bytes",
    "Mrcal.Ply.ascii_bgr_wrong",
    "Mrcal.Ply.ascii_precision_wrong",
    "Mrcal.Ply.ascii_range_wrong"
   ],
   "note": "Missing, because it isn't so: text files with blue, green and red have a seventh column, that the header doesn't declare: they're malformed (ascii_bgr_wrong; a reader that ignores excess columns does read them, ascii_readable_partial). Text files have one digit after the point (ascii_precision_wrong), and colors over 255 make them unreadable (ascii_range_wrong)."
  },
  {
   "property": "C114",
   "status": "partial",
   "theorems": [
    "Mrcal.Calibrate.args_accepted_iff",
    "Mrcal.Calibrate.run_iff",
    "Mrcal.Calibrate.files_written",
    "Mrcal.Calibrate.files_one_solution",
    "Mrcal.Calibrate.corners_kept",
    "Mrcal.Calibrate.skip_intrinsics",
    "Mrcal.Calibrate.skip_extrinsics",
    "Mrcal.Calibrate.seeded_deterministic",
    "Mrcal.Calibrate.unseeded_start",
    "Mrcal.Calibrate.names_distinct",
    "Mrcal.Calibrate.spline_focal_shared_wrong",
    "Mrcal.Calibrate.spline_focal_lost_wrong"
   ],
   "note": "mrcal.optimize() is given, with what it promises (C111); so are seed_stereographic() and the poses of the boards. Missing, because it isn't so: with a splined lens model and no --seed all the cameras are given the mean of all the focal lengths, and that is then locked (spline_focal_shared_wrong, spline_focal_lost_wrong)."
  },
  {
   "property": "C115",
   "status": "partial",
   "theorems": [
    "Mrcal.StereoPy.rectified_accepted",
    "Mrcal.StereoPy.sparse_value",
    "Mrcal.StereoPy.scalar_value",
    "Mrcal.StereoPy.sparse_accepted",
    "Mrcal.StereoPy.dense_value",
    "Mrcal.StereoPy.dense_sparse",
    "Mrcal.StereoPy.bounds_scaled",
    "Mrcal.StereoPy.range_of_points",
    "Mrcal.StereoPy.reference_sparse",
    "Mrcal.StereoPy.reference_dense",
    "Mrcal.StereoPy.unproject_ranges",
    "Mrcal.StereoPy.unproject_one",
    "Mrcal.StereoPy.unproject_image",
    "Mrcal.StereoPy.unproject_list",
    "Mrcal.StereoPy.swapped_wrong",
    "Mrcal.StereoPy.both_wrong",
    "Mrcal.StereoPy.min_truncated_wrong",
    "Mrcal.StereoPy.scale_truncated_wrong",
    "Mrcal.StereoPy.max_wrapped_wrong",
    "Mrcal.StereoPy.reference_float_wrong"
   ],
   "note": "For lists of pixels: in full, for positive scales and bounds that are each given once. For whole images: integer disparities, a scale and a lower bound that are integers in the scaled units, bounds that fit into 16 bits. The code violates the rest, proved with witnesses: the models in the wrong order are accepted (swapped_wrong); a bound given twice with the same number means different things for images and lists (both_wrong); the lower bound and the scale are rounded down for images (min_truncated_wrong, scale_truncated_wrong); a large upper bound wraps around (max_wrapped_wrong, for a numpy that wraps); the reference implementation doesn't truncate floating-point images (reference_float_wrong). A LATLON range that isn't finite is excluded from the comparison with the reference. range_of_points assumes RectRepresentable, as in C37."
  },
  {
   "property": "C116",
   "status": "partial",
   "theorems": [
    "Mrcal.Convert.solve_converted",
    "Mrcal.Convert.seed_tiny",
    "Mrcal.Convert.converted_model",
    "Mrcal.Convert.region_partial",
    "Mrcal.Convert.monocular_views",
    "Mrcal.Convert.monocular_poses",
    "Mrcal.Convert.pixels_partial",
    "Mrcal.Convert.default_region",
    "Mrcal.Convert.samples_meaning",
    "Mrcal.Convert.trial_fit",
    "Mrcal.Convert.sampled_model",
    "Mrcal.Convert.output_name",
    "Mrcal.Convert.output_all",
    "Mrcal.Convert.same_lens",
    "Mrcal.Convert.options",
    "Mrcal.Convert.margin_wrong",
    "Mrcal.Convert.monocular_reference_wrong",
    "Mrcal.Convert.viz_last_wrong",
    "Mrcal.Convert.overwrites_wrong",
    "Mrcal.Convert.default_margin",
    "Mrcal.Convert.start_core",
    "Mrcal.Convert.hypothesis_points"
   ],
   "note": "mrcal.optimize(), unproject(), the alignment are given by contracts (OptOk, FitOk, UnprojectOk). The regions are proved for a radius that isn't negative in the end (region_partial, pixels_partial); poses are proved for rotations that rt_from_Rt() can represent. The code violates the rest, proved with witnesses: a margin (negative --radius) that is larger than the image ignores nothing (margin_wrong); --monocular fails for the camera at the reference if there are 3 cameras or more (monocular_reference_wrong); with --all, --viz shows the last camera instead of the given one (viz_last_wrong); existing files are overwritten without --force (overwrites_wrong)."
  },
  {
   "property": "C117",
   "status": "partial",
   "theorems": [
    "Mrcal.Region.cell_stats_partial",
    "Mrcal.Region.corner_number",
    "Mrcal.Region.using_matches",
    "Mrcal.Region.cell_unique",
    "Mrcal.Region.vertex_valid",
    "Mrcal.Region.region_shape",
    "Mrcal.Region.region_accepted",
    "Mrcal.Region.region_largest",
    "Mrcal.Region.area_rectangle",
    "Mrcal.Region.region_empty",
    "Mrcal.Region.tool_vertices",
    "Mrcal.Region.holes",
    "Mrcal.Region.mean_wrong",
    "Mrcal.Region.count_wrong",
    "Mrcal.Region.boundary_wrong",
    "Mrcal.Region.holes_wrong",
    "Mrcal.Region.narrow_wrong",
    "Mrcal.Region.show_regional_wrong",
    "Mrcal.Region.plot_region_wrong"
   ],
   "note": "unproject(), projection_uncertainty() are any functions; findContours() has a contract (Contours: its vertices are set pixels of the mask; External, only for the holes). The statistics are proved as the code computes them (cell_stats_partial): with fewer than 3 observations, the mean and standard deviation are 0. The code violates the rest, proved with witnesses: the mean is compared, not the mean of the absolute values, so any negative bias passes (mean_wrong); residuals are counted, not observations, so cells with two observations pass, whatever their residuals (count_wrong); observations exactly between two cells are ignored (boundary_wrong); invalid cells in the interior are included (holes, holes_wrong); imagers more than 20 times as wide as high get no region (narrow_wrong); show_residuals_regional() ignores the grid that was asked for (show_regional_wrong); the plots of residuals raise an exception when they're to show the region (plot_region_wrong)."
  },
  {
   "property": "C118",
   "status": "partial",
   "theorems": [
    "Mrcal.Reproject.output_names",
    "Mrcal.Reproject.outputs_differ",
    "Mrcal.Reproject.files_changed",
    "Mrcal.Reproject.no_overwrite",
    "Mrcal.Reproject.process_images_partial",
    "Mrcal.Reproject.modes",
    "Mrcal.Reproject.bad_options",
    "Mrcal.Reproject.fit_points_partial",
    "Mrcal.Reproject.fit_fraction_wrong",
    "Mrcal.Reproject.collision_wrong",
    "Mrcal.Reproject.pair_wrong",
    "Mrcal.Reproject.jobs_wrong",
    "Mrcal.Reproject.skipped_wrong",
    "Mrcal.Reproject.extension_wrong",
    "Mrcal.Reproject.nothing_processed"
   ],
   "note": "Reading and writing models and images, the glob, the pinhole fit, the maps and the remapping are any functions (the maps are the subject of C-claims about image_transforms). process_images_partial needs distinct output names, images that exist, and, with --force, inputs that aren't outputs; images whose processing raises an exception are excluded. The code violates the rest, proved with witnesses: images of the same name from two directories overwrite each other in --outdir (collision_wrong); in the mode with two sets the first set is written before the outputs of the second are checked (pair_wrong); with several jobs exceptions are lost and the tool reports success (jobs_wrong); unreadable and missing images are skipped and the tool reports success (skipped_wrong); extensions that don't have three letters are refused (extension_wrong); --fit with a decimal point fails (fit_fraction_wrong)."
  },
  {
   "property": "C119",
   "status": "partial",
   "theorems": [
    "Mrcal.PointTools.points_meaning",
    "Mrcal.PointTools.points_intrinsics",
    "Mrcal.PointTools.points_nan",
    "Mrcal.PointTools.points_translation",
    "Mrcal.PointTools.points_warning",
    "Mrcal.PointTools.points_undo_image_partial",
    "Mrcal.PointTools.points_empty_wrong",
    "Mrcal.PointTools.points_column_wrong",
    "Mrcal.PointTools.fov_vertical",
    "Mrcal.PointTools.fov_horizontal_partial",
    "Mrcal.PointTools.fov_pinhole",
    "Mrcal.PointTools.fov_corner_partial",
    "Mrcal.PointTools.isAngle_unique",
    "Mrcal.PointTools.fov_undefined_wrong",
    "Mrcal.PointTools.fov_nan_wrong",
    "Mrcal.PointTools.fov_outside_wrong",
    "Mrcal.PointTools.within_each",
    "Mrcal.PointTools.keys_sorted_partial",
    "Mrcal.PointTools.keys_wrong"
   ],
   "note": "points_undo_image_partial: the TO camera has a direct inverse, and the FROM camera unprojects the pixel correctly (see C58). fov_horizontal_partial needs the vertical angles to be known; fov_corner_partial is for pinhole cameras with the principal point at the center. The code violates the rest, proved with witnesses: the horizontal and corner reports test the vertical angles, so known angles are 'undefined' (fov_undefined_wrong) and unknown ones 'nan' (fov_nan_wrong); if the principal point isn't in the image the angles are added, not subtracted (fov_outside_wrong); an empty input is an error (points_empty_wrong); a column of two numbers is taken for a pixel (points_column_wrong); the keys aren't sorted with a million records (keys_wrong). shapely's contains(), vnl-filter and vnl-join aren't modelled."
  },
  {
   "property": "C120",
   "status": "partial",
   "theorems": [
    "Mrcal.Format.target_exists_unique",
    "Mrcal.Format.target_not_input",
    "Mrcal.Format.format_target",
    "Mrcal.Format.converts_partial",
    "Mrcal.Format.keeps_files",
    "Mrcal.Format.only_targets",
    "Mrcal.Format.standard_output",
    "Mrcal.Format.two_stdin",
    "Mrcal.Format.named_stops_wrong",
    "Mrcal.Format.failed_write_wrong",
    "Mrcal.Format.force_lost_wrong",
    "Mrcal.Format.collision_wrong",
    "Mrcal.Format.note_written",
    "Mrcal.Format.note_wrong",
    "Mrcal.Format.write_format"
   ],
   "note": "converts_partial: the inputs don't have the extension of the output, and their targets are different. The code violates the rest, proved for all such command lines: an input that has the extension of the output ends the tool with success, and the inputs after it aren't converted (named_stops_wrong); a model that the .cahvor format doesn't have leaves an empty file, and the next run succeeds because it exists (failed_write_wrong), and with --force a good file is lost (force_lost_wrong); of two inputs with the same target one isn't converted, and the tool succeeds (collision_wrong); the note isn't written to .cahvor files (note_wrong). Reading models and the text of the formats are given; directories and permissions aren't modelled."
  },
  {
   "property": "C121",
   "status": "partial",
   "theorems": [
    "Mrcal.TriTool.homography_feature",
    "Mrcal.TriTool.homography_plane",
    "Mrcal.TriTool.perfect_range",
    "Mrcal.TriTool.perfect_plane_wrong",
    "Mrcal.TriTool.axis_angle",
    "Mrcal.TriTool.perturb_rot",
    "Mrcal.TriTool.perturbed_meaning",
    "Mrcal.TriTool.perturbed_zero",
    "Mrcal.TriTool.axes_unit",
    "Mrcal.TriTool.worst_largest",
    "Mrcal.TriTool.start_spec",
    "Mrcal.TriTool.correct_pose",
    "Mrcal.TriTool.far_wrong",
    "Mrcal.TriTool.correct_wrong",
    "Mrcal.TriTool.plot_axes"
   ],
   "note": "The code violates two parts: with --plane-n --plane-d the pixel on the plane is reported to be at the distance --range-estimate (perfect_plane_wrong); rays that converge at a point that's more than 1km from the estimate are treated as if they diverged (far_wrong), and if none of the angles that are tried is below this limit, --make-corrected-model1 ends with a NameError instead of the message (correct_wrong). perturbed_meaning, perturbed_zero and correct_pose are for rotations whose rotation vector is computed with full precision (as in C46). Matching is C110; triangulation has its own properties; scipy.optimize.minimize(), the other options and the plots aren't modelled."
  },
  {
   "property": "C122",
   "status": "partial",
   "theorems": [
    "Mrcal.StereoTool.keeps_files",
    "Mrcal.StereoTool.only_outputs",
    "Mrcal.StereoTool.in_outdir",
    "Mrcal.StereoTool.models_only",
    "Mrcal.StereoTool.counts_checked",
    "Mrcal.StereoTool.all_pairs_partial",
    "Mrcal.StereoTool.refused_wrong",
    "Mrcal.StereoTool.parallel_wrong",
    "Mrcal.StereoTool.pair_written_partial",
    "Mrcal.StereoTool.same_name_wrong",
    "Mrcal.StereoTool.files_distinct",
    "Mrcal.StereoTool.tag_clean",
    "Mrcal.StereoTool.cloud_points",
    "Mrcal.StereoTool.cloud_valid",
    "Mrcal.StereoTool.disparities_near",
    "Mrcal.StereoTool.disparities_wrong",
    "Mrcal.StereoTool.stretch_range",
    "Mrcal.StereoTool.stretch_wrong",
    "Mrcal.StereoTool.gray_partial",
    "Mrcal.StereoTool.gray_wrong"
   ],
   "note": "The code violates several parts: if the two images of a pair have the same name, in different directories, one of the rectified images isn't written, or lost (same_name_wrong; pair_written_partial is for different names); if images don't have the right size the tool succeeds, with nothing written (refused_wrong), and with several jobs all exceptions are ignored (parallel_wrong; all_pairs_partial is for one job or one pair); the disparities are cut to the nearest multiple of 16, so the largest ones may not be searched (disparities_wrong); --force-grayscale sums the channels with 8 bits, so that white gets darker than gray (gray_wrong, gray_partial); --equalization stretch divides by 0 for a constant image (stretch_wrong). The visualizations aren't modelled; what is called has its own properties, or is given."
  },
  {
   "property": "C123",
   "status": "proved",
   "theorems": [
    "Mrcal.SortedEig.sorted_pairs",
    "Mrcal.SortedEig.sorted_eigen",
    "Mrcal.SortedEig.extremes",
    "Mrcal.SortedEig.worst_direction",
    "Mrcal.SortedEig.plane_variance",
    "Mrcal.SortedEig.ellipse_contour",
    "Mrcal.SortedEig.ellipse_extent",
    "Mrcal.SortedEig.ellipse_none",
    "Mrcal.SortedEig.points_variance",
    "Mrcal.SortedEig.points_ellipse",
    "Mrcal.SortedEig.jt_x"
   ],
   "note": "np.linalg.eig() and np.argsort() are given: the eigenvectors are unit vectors, and independent. Complex eigenvalues and broadcasting aren't modelled."
  },
  {
   "property": "C124",
   "status": "partial",
   "theorems": [
    "Mrcal.ShowResiduals.argument",
    "Mrcal.ShowResiduals.argument_only",
    "Mrcal.ShowResiduals.wanted_numbers",
    "Mrcal.ShowResiduals.bad_argument",
    "Mrcal.ShowResiduals.wanted_globs",
    "Mrcal.ShowResiduals.glob_nothing",
    "Mrcal.ShowResiduals.from_worst",
    "Mrcal.ShowResiduals.from_worst_rank",
    "Mrcal.ShowResiduals.plot_meaning",
    "Mrcal.ShowResiduals.plot_from_worst",
    "Mrcal.ShowResiduals.rms_meaning",
    "Mrcal.ShowResiduals.image_meaning",
    "Mrcal.ShowResiduals.windows_partial",
    "Mrcal.ShowResiduals.windows_from_worst_partial",
    "Mrcal.ShowResiduals.hardcopy_partial",
    "Mrcal.ShowResiduals.windows_wrong",
    "Mrcal.ShowResiduals.reversed_range_wrong",
    "Mrcal.ShowResiduals.hardcopy_glob_wrong"
   ],
   "note": "The code violates it: an observation that doesn't exist fails in a child process, but the tool succeeds (windows_wrong); a reversed range means nothing, and isn't an error (reversed_range_wrong); --hardcopy with a glob that matches several images overwrites the file again and again (hardcopy_glob_wrong). np.argsort(), fnmatch, optimizer_callback() are given; gnuplot isn't modelled."
  },
  {
   "property": "C125",
   "status": "partial",
   "theorems": [
    "Mrcal.Geometry.cameras_meaning",
    "Mrcal.Geometry.fromsolve_cameras",
    "Mrcal.Geometry.fromsolve_all",
    "Mrcal.Geometry.fromsolve_refused",
    "Mrcal.Geometry.boards_meaning",
    "Mrcal.Geometry.fromsolve_boards",
    "Mrcal.Geometry.explicit_boards",
    "Mrcal.Geometry.refused",
    "Mrcal.Geometry.points_meaning",
    "Mrcal.Geometry.labels_partial",
    "Mrcal.Geometry.labels_wrong",
    "Mrcal.Geometry.no_labels_wrong",
    "Mrcal.Geometry.no_extrinsics_wrong"
   ],
   "note": "The code violates it: with show_points='thiscamera' the labels are put on other points (labels_wrong); an empty dict of labels is an exception (no_labels_wrong); so is a model file that doesn't have icam_extrinsics (no_extrinsics_wrong). Transforms are Rt in the model; the default scale of the axes isn't modelled."
  },
  {
   "property": "C126",
   "status": "partial",
   "theorems": [
    "Mrcal.Residuals.measurements_board_meaning",
    "Mrcal.Residuals.measurements_point_meaning",
    "Mrcal.Residuals.vectorfield_partial",
    "Mrcal.Residuals.magnitudes_partial",
    "Mrcal.Residuals.directions_partial",
    "Mrcal.Residuals.both_wrong",
    "Mrcal.Residuals.histogram_meaning",
    "Mrcal.Residuals.refused",
    "Mrcal.Residuals.gaussian_meaning",
    "Mrcal.Residuals.gaussian_args"
   ],
   "note": "The code violates it: the plots of one camera glue the boards and the points along the wrong axis, so solves with both either fail or show mixed data (both_wrong); with the region these plots fail (Mrcal.Region.plot_region_wrong). The histogram is right for all solves. gaussian_meaning needs a nonzero standard deviation; numpysane.glue() is assumed to behave as documented."
  },
  {
   "property": "C127",
   "status": "partial",
   "theorems": [
    "Mrcal.Polygon.union_partial",
    "Mrcal.Polygon.terminates",
    "Mrcal.Polygon.cut_meaning",
    "Mrcal.Polygon.tiny_hole_wrong"
   ],
   "note": "shapely is a parameter; what it promises about point sets is a hypothesis. The code violates the property if a convex hole is less than about 1/100 of the size of the polygon: the line doesn't reach the exterior, nothing is cut, and the polygon is left out of the result, with a warning (tiny_hole_wrong)."
  },
  {
   "property": "C128",
   "status": "partial",
   "theorems": [
    "Mrcal.VsDistance.observed_partial",
    "Mrcal.VsDistance.observed_corners",
    "Mrcal.VsDistance.reference_wrong",
    "Mrcal.VsDistance.distances_meaning",
    "Mrcal.VsDistance.ray_meaning",
    "Mrcal.VsDistance.curve_partial",
    "Mrcal.VsDistance.default_wrong",
    "Mrcal.VsDistance.refused",
    "Mrcal.VsDistance.tool_partial",
    "Mrcal.VsDistance.tool_refused",
    "Mrcal.VsDistance.tool_wrong",
    "Mrcal.VsDistance.contours"
   ],
   "note": "The code violates it: the default method is refused, so the documented example and the tool without --method are exceptions (default_wrong); the points seen by a camera at the reference are transformed with the pose of the last camera, or there's an exception (reference_wrong); the tool ignores --observed-pixel-uncertainty and exits with status 0 if there are no optimization_inputs (tool_wrong). unproject(), projection_uncertainty(), the corners are given."
  },
  {
   "property": "C129",
   "status": "partial",
   "theorems": [
    "Mrcal.OffPinhole.angle_meaning",
    "Mrcal.OffPinhole.opencv_curve",
    "Mrcal.OffPinhole.exact_wrong",
    "Mrcal.OffPinhole.stereographic_curve",
    "Mrcal.OffPinhole.sampled_meaning",
    "Mrcal.OffPinhole.sampled_on_curve",
    "Mrcal.OffPinhole.markers_meaning",
    "Mrcal.OffPinhole.radial_refused",
    "Mrcal.OffPinhole.opencv_plot",
    "Mrcal.OffPinhole.heat_meaning",
    "Mrcal.OffPinhole.heat_refused",
    "Mrcal.OffPinhole.pinhole_zero",
    "Mrcal.OffPinhole.vectors_partial",
    "Mrcal.OffPinhole.outline_wrong"
   ],
   "note": "Proved, except that with tangential distortion or thin prisms the equation isn't the projection (exact_wrong: contrary to the comment in the code), and that the outline of the imager, and the caller's _set, are lost in a vector field (outline_wrong). Exact arithmetic; unproject() is given"
  },
  {
   "property": "C130",
   "status": "partial",
   "theorems": [
    "Mrcal.SplinedCorrection.deltau_meaning",
    "Mrcal.SplinedCorrection.surface_meaning",
    "Mrcal.SplinedCorrection.surface_imager",
    "Mrcal.SplinedCorrection.vectors_meaning",
    "Mrcal.SplinedCorrection.vectors_imager",
    "Mrcal.SplinedCorrection.contour_partial",
    "Mrcal.SplinedCorrection.boundary_partial",
    "Mrcal.SplinedCorrection.warning_partial",
    "Mrcal.SplinedCorrection.refused",
    "Mrcal.SplinedCorrection.plotted",
    "Mrcal.SplinedCorrection.title_wrong",
    "Mrcal.SplinedCorrection.single_wrong",
    "Mrcal.SplinedCorrection.silent_wrong"
   ],
   "note": "Proved, except: the default title has the text {xy} (title_wrong); if polygon_difference() fails there's no warning (silent_wrong); regions of one vertex are an exception in the domain of the spline (single_wrong); the contour with order 2 and 3 columns of knots is wrong (C112). The observations aren't modelled"
  },
  {
   "property": "C131",
   "status": "partial",
   "theorems": [
    "Mrcal.ShowRegion.curves_meaning",
    "Mrcal.ShowRegion.refused_iff",
    "Mrcal.ShowRegion.title_meaning",
    "Mrcal.ShowRegion.names_wrong",
    "Mrcal.ShowRegion.annotate_meaning",
    "Mrcal.ShowRegion.tool_partial",
    "Mrcal.ShowRegion.overwrite_wrong",
    "Mrcal.ShowRegion.tool_title_wrong"
   ],
   "note": "Proved, except: the caller's list of names is modified and a tuple of names fails if a region is empty (names_wrong); the tool overwrites existing images without --force (overwrite_wrong); without --title the tool's plot has no title (tool_title_wrong)"
  },
  {
   "property": "C132",
   "status": "partial",
   "theorems": [
    "Mrcal.GeometryTool.read_iff",
    "Mrcal.GeometryTool.order_free",
    "Mrcal.GeometryTool.pose_meaning",
    "Mrcal.GeometryTool.incomplete_wrong",
    "Mrcal.GeometryTool.pair_meaning",
    "Mrcal.GeometryTool.refs_partial",
    "Mrcal.GeometryTool.missing_wrong",
    "Mrcal.GeometryTool.item_meaning",
    "Mrcal.GeometryTool.icams_meaning",
    "Mrcal.GeometryTool.icams_refused",
    "Mrcal.GeometryTool.swapped_wrong"
   ],
   "note": "Proved, except: a file without cam2ins is accepted (incomplete_wrong); if a model has no transform then nothing is shown (missing_wrong); a range whose ends are swapped is accepted as no cameras (swapped_wrong). Lines are modelled after the regular expressions and float() have been applied; blanks in the list of cameras aren't modelled"
  },
  {
   "property": "C133",
   "status": "partial",
   "theorems": [
    "Mrcal.Boundaries.state_labels",
    "Mrcal.Boundaries.measurement_labels_partial",
    "Mrcal.Boundaries.triangulated_wrong"
   ],
   "note": "Proved, except: measurements of triangulated points have no boundary, and are under the label of another kind (triangulated_wrong). Npoints_fixed isn't negative, and the old names of the poses aren't used (C107)"
  },
  {
   "property": "C134",
   "status": "partial",
   "theorems": [
    "Mrcal.PointPose.parts",
    "Mrcal.PointPose.others_ignored",
    "Mrcal.PointPose.six_needed",
    "Mrcal.PointPose.exact_partial",
    "Mrcal.PointPose.unique_planar",
    "Mrcal.PointPose.behind_wrong",
    "Mrcal.PointPose.negative_wrong"
   ],
   "note": "partial: the true pose is found only if the origin of the points is in front of the camera: a camera that has moved past this origin, with all the points in front of it, is never found (behind_wrong). The documentation says that observations with x<0 or y<0 are ignored, and they're used (negative_wrong). solvePnP() is any function that satisfies the contract SolvesPnP."
  },
  {
   "property": "C135",
   "status": "proved",
   "theorems": [
    "Mrcal.LinksPython.traverse_correct",
    "Mrcal.LinksPython.refused",
    "Mrcal.LinksPython.sorted_standard"
   ],
   "note": "Proved for real costs and callbacks that don't raise. heapq is any implementation that satisfies the contract Standard (binary heap; push and pop need a heap), sorted_standard shows that there's one. The C implementation is C14."
  },
  {
   "property": "C136",
   "status": "proved",
   "theorems": [
    "Mrcal.AlignedPython.same",
    "Mrcal.AlignedPython.rotation"
   ],
   "note": "Exact arithmetic."
  },
  {
   "property": "C137",
   "status": "partial",
   "theorems": [
    "Mrcal.Overlay.drawn",
    "Mrcal.Overlay.legend_meaning",
    "Mrcal.Overlay.count",
    "Mrcal.Overlay.refused",
    "Mrcal.Overlay.missing_wrong",
    "Mrcal.Overlay.triangulated_wrong"
   ],
   "note": "Proved, except: corners that weren't detected, at (-1,-1) with a weight of -1, are drawn as outliers (missing_wrong); observations of triangulated points aren't drawn (triangulated_wrong). The reprojection is any function of each pixel on its own."
  },
  {
   "property": "C138",
   "status": "proved",
   "theorems": [
    "Mrcal.UncertaintyPlot.heat_meaning",
    "Mrcal.UncertaintyPlot.overlays",
    "Mrcal.UncertaintyPlot.refused",
    "Mrcal.UncertaintyPlot.title_meaning"
   ],
   "note": "unproject() and projection_uncertainty() are any functions here (they're modelled elsewhere). The contours, the color range and the other options for gnuplot aren't modelled."
  },
  {
   "property": "C139",
   "status": "partial",
   "theorems": [
    "Mrcal.DiffRegion.drawn_partial",
    "Mrcal.DiffRegion.nothing",
    "Mrcal.DiffRegion.empty_refused",
    "Mrcal.DiffRegion.three_wrong",
    "Mrcal.DiffRegion.intrinsics_only_wrong"
   ],
   "note": "missing: three different distances (a point's coordinates are each scaled with one of them: three_wrong), intrinsics_only with different lenses (the region isn't moved at all: intrinsics_only_wrong), and regions with segments shorter than a millionth of the 50 pixel spacing (C112). project() and unproject() are any functions here; NaN isn't modelled."
  },
  {
   "property": "C140",
   "status": "partial",
   "theorems": [
    "Mrcal.StereoPairPlot.which_regions",
    "Mrcal.StereoPairPlot.first_camera",
    "Mrcal.StereoPairPlot.second_camera_partial",
    "Mrcal.StereoPairPlot.arrows_meaning",
    "Mrcal.StereoPairPlot.infinity_consistent",
    "Mrcal.StereoPairPlot.distance_wrong"
   ],
   "note": "missing: at a finite distance, the region of the second camera is drawn at that distance from the second camera, not from the first one (distance_wrong); regions with segments shorter than a millionth of the 50 pixel spacing (C112). Infinite differences, the title, the heat map and the options for gnuplot aren't modelled. The observations drawn on top are in C137."
  }
 ]
}