# Formal model of mrcal: design

Everything is in Lean 4 (4.33.0) with Mathlib, under `lean/Verif/`.
`/repo` is read as text only; nothing of it is built or executed.

## Method

* **Shallow model, function by function.** Each C/Python function becomes a small total Lean
  function in `Verif/Model/`. Each definition cites file and lines and says what is simplified.
* **Errors are values** (`Option`, `Except`, explicit `-1`), so that error branches are reachable
  in the theorems, not silently totalised. Where the C code would access memory out of bounds,
  divide by zero or abort, this is a distinct outcome (or an explicit hypothesis).
* **Integers.** Sizes and indices are `Nat`/`Int` (unbounded); machine overflow is *not* modelled
  unless a definition says otherwise (several do: the spline stride, the imager size, pixel addresses, the color maps).
* **Floating point** is modelled by exact reals (`ℝ`) or rationals. Rounding, overflow, NaN, signed zeros are
  *not* modelled unless a definition says otherwise. So numeric theorems say "the formula and the branch logic are right".
* **Properties** are in `Verif/Props/*Props.lean`, stated against small independent specifications
  (the mathematics, the documentation, the file format). Beside each theorem there is an `example`
  giving a concrete, non-trivial instance of its hypotheses.
* **Deviations.** When the code does not satisfy the property as a user would read it, the
  deviation is recorded below, a counterexample theorem (`_wrong`, or another name noted in MANIFEST.json) is proved about the model, and the
  part that does hold is proved with the suffix `_partial` (or with the extra hypothesis visible in the statement). Such properties have the status `partial`.
* **Mutation tests.** `seeded/LOG.jsonl`: each line is one realistic bug put into the model, and the theorems that then fail. Survivors led to
  stronger theorems (`theorems_tightened`).

## Trusted base

* The Lean 4 kernel and the standard axioms `propext`, `Classical.choice`, `Quot.sound`. No other axioms; no `sorry`,
  `native_decide`, `bv_decide`. `AXIOMS.md` lists the axioms of every claimed theorem, as printed by `#print axioms`.
* The hand translation from C/C++/Python to Lean (the citations make this reviewable).
* Semantics of C integers within range, IEEE arithmetic idealised as real arithmetic.
* Third-party code (libdogleg, CHOLMOD, LAPACK, libpng, libjpeg, stb_image, re2c, numpy, std::push_heap and friends) is not modelled except through the
  interface behaviour stated where it is used.

## What is modelled

| file in /repo | parts | model |
|----|----|----|
| mrcal.c | state and measurement layout: num/index functions | `StateLayout`, `Measurements` |
| mrcal.c, scales.h | packing and unpacking of the state vector | `Scales`, `Pack` |
| mrcal.c | optimizer callback: which residuals and Jacobian entries are written, for boards, points, triangulated points, regularization; number of nonzero entries; verbose reporting | `Callback`, `OptimizeReport` |
| mrcal.c | optimizer callback: unpacking the packed state into intrinsics, poses, points, deflection; the values and the gradients the callback gets from `project()` and from the triangulation; the chain rule into the packed Jacobian | `CallbackValues` |
| mrcal.c | outlier marking, the rejection loop, outlier counts | `Outliers` |
| mrcal.c | camera correspondence | `Cameras` |
| mrcal.c, types.h | lens names and configuration: parsing, printing, metadata | `Lens`, `LensName` |
| mrcal.c, opencv.c, cahvore.cc | all lens models with gradients: pinhole, stereographic, lonlat, latlon, OpenCV 4/5/8/12, CAHVOR, CAHVORE, splined | `Geom`, `OpenCV`, `Cahvor`, `Cahvore`, `Splines` |
| mrcal.c | project() of boards and points through the poses with all gradients; mrcal_project(), mrcal_unproject() | `Project`, `ProjectApi` |
| poseutils.c, poseutils-opencv.c, poseutils-uses-autodiff.cc | R, Rt, r, rt operations with gradients | `Pose`, `Rodrigues` |
| _autodiff.hh | the automatic differentiation | `Autodiff` |
| triangulation.cc | all triangulation methods with gradients; the error function of the optimizer | `Triangulation` |
| stereo.c, mrcal/stereo.py | rectified system, rectification maps, ranges, color maps | `Stereo`, `ColorMap` |
| poseutils.c 1439-1645, utils.py 26-265 | aligning points and vectors | `Procrustes` |
| uncertainty.c 1-1541, mrcal-pywrap.c 2015-2110 | the gradient of the cross-reprojection transformation: parsing of the Jacobian rows, accumulation in blocks, solution (LAPACK by its contract) | `Uncertainty` |
| model_analysis.py 873-1517 | projection_uncertainty(): the gradients of all methods, at any distance and at infinity, and the propagation. One point; broadcasting isn't modelled; each optional input is given | `ProjUncertainty` |
| cameramodel.py 62-147, 160-387, 862-892, 1232-1290, 1478-1990 | the cameramodel object: its setters and getters, construction, (de)serialization of the optimization inputs. numpy.savez and base-85 are a parameter by its contract. Types of the arguments aren't checked | `CameraModel` |
| cameramodel.py 503-684, 1316-1475 | the native .cameramodel format in Python: `_write()` with its formatting of numbers ("{:.10g}"), `_read_into_self()` with ast.literal_eval(). Not modelled: escapes in strings, triple quotes, None/True/False, sets, complex numbers, infinities and NaN, broadcasting, file I/O, legacy keys other than the renamed ones | `ModelPy` |
| cahvor.py 42-408 | .cahvor files: the values of the keys as they're written, and the model that is made from them. Not modelled: the text (numbers are exact), the keys that nothing reads, the warning about skewed axes, read_transforms() | `CahvorFile` |
| cameramodel.py 895-1163, 1374-1454 | OpenCV/ROS files: from the nested dictionary that the yaml parser makes to the model; the values that are written. Not modelled: the parsers, the text, strings or booleans in place of numbers | `RosFile` |
| _poseutils_scipy.py 94-139, poseutils-genpywrap.py 1061-1095, poseutils.py 1538-1545, 1601-1608 | quaternions: quat_from_R, R_from_quat, qt_from_Rt, Rt_from_qt. One broadcasted slice. Not modelled: shapes, `out` | `Quaternion` |
| image_transforms.py 18-504 | scale_focal__best_pinhole_fit, pinhole_model_for_reprojection, image_transformation_map. `cv2.initUndistortRectifyMap()` is modelled from its documentation; NaN/infinite scales are kept as symbols. Not modelled: transform_image (cv2.remap), float32 | `ImageTransform` |
| projections.py 112-397 | Python unproject(): the dispatch, the normalization, the gradients from those of project(). One broadcasted slice; `out` is not modelled; the code past line 397 is unreachable | `UnprojectPy` |
| triangulation.py 27-58, 1090-1613, 1616-2018 | triangulate(): the argument parsing of the methods, triangulate_slice, _triangulation_uncertainty_internal (all gradients, the stabilization), the covariances. The broadcasting is a list of slices; NaN unprojections fail the call (the code would produce (0,0,0)) | `TriangulatePy` |
| model_analysis.py 2152-2244 | model_resolution__deg_pixel. Division by 0 (a pixel that doesn't move at all) isn't infinity | `Resolution` |
| mrcal/calibration.py:24-505, mrcal/utils.py:788-938 | compute_chessboard_corners() with an existing cache file, mapping_file_framenocameraindex() | `Corners` |
| utils.py 268-323, model_analysis.py 27-396, 1520-2104 | sample_imager, implied_Rt10__from_unprojections (residuals and gradients; the scipy solver is any function), projection_diff, stereo_pair_diff. The grid dimensions are integers ≥ 0; the uncertainties used as weights are any function; projecting the zero vector is NaN, other divisions by 0 in a projection are as in `Project` | `ModelDiff` |
| model_analysis.py 398-870, mrcal-genpywrap.py 477-638, mrcal-pywrap.c 110-580, utils.py 1286-1530 | propagation of the calibration-time noise: packing of the gradient, products with the sparse Jacobian, CHOLMOD solves (by contract), the estimate of the noise, the summaries. Broadcasting isn't modelled | `Propagate` |
| image.c, image.h | pixel access, saving, loading | `ImageIO` |
| cameramodel-parser.re, mrcal.c | reading and writing .cameramodel files | `ModelFile` |
| traverse-sensor-links.c, heap.cc | shortest paths | `SensorLinks` |
| mrcal-pywrap.c, python-wrapping-utilities.h | argument handling, validation and defaults of optimize() and the index functions; ingestion of triangulated observations | `Kwargs`, `Ingest` |
| mrcal/calibration.py | `_estimate_camera_poses`, `estimate_joint_frame_poses`, the pose part of `seed_stereographic` | `Seed` |
| `mrcal/calibration.py` 508-781, 1398-1608 | the chessboard pose from one image (all of it except cv2.solvePnP, which is given with a contract: if some pose reproduces the data, what's returned reproduces the data; if it can, with all points in front), `seed_stereographic()` | `Pnp` |
| `mrcal/utils.py` 440-584, `mrcal/synthetic_data.py` 594-750 | `hypothesis_board_corner_positions()` (all returned arrays, and what happens to the caller's mask), `make_perfect_observations()`; numpy negative indices; randn() is arbitrary | `Perfect` |
| `mrcal-to-kalibr` 100-219, `mrcal-from-kalibr` 150-363, `mrcal-graft-models` 195-225 | the dictionaries that are written and read; all options. Not the yaml text or the output files; Rt transformations are stored as they are | `Kalibr` |
| `mrcal-rotate-corners` 111-178, `mrcal-cull-corners` 134-292 | all options; the state that is kept from line to line; the random choice is an arbitrary list of indices. Not the regular expressions that split the lines | `CornerTools` |
| mrcal-pywrap.c:2200-3247, 1676-1794 | the python index functions (state_index_...(), num_states_...(), measurement_index_...(), num_measurements_...()), and the sizes used by optimize() | `IndexApi` |
| mrcal/utils.py:1103-1210 | ingest_packed_state(), with python slices and the copy/view behaviour of ravel() | `IngestState` |
| mrcal/synthetic_data.py:236-554 | synthesize_board_observations(), with the random numbers as a given sequence and project() given | `Synthesize` |
| mrcal/stereo.py:1609-2046, mrcal-genpywrap.py:721-782 | match_feature(), apply_homography(); cv2.remap(), cv2.matchTemplate() and np.linalg.lstsq() are given; not: the plot, float32, a negative search radius | `MatchFeature` |
| mrcal.c:5972-6177, 6180-6624, mrcal-pywrap.c:1757-1850 | mrcal_optimize(), mrcal_optimizer_callback() as a whole: checks, the solve/reject loop, what is returned and written; the buffers python passes. libdogleg is given; not: the verbose reports, negative board sizes | `OptimizeSolve` |
| mrcal/utils.py:587-645, 749-776 | `_splined_stereographic_domain()` up to unprojecting the contour (in the units of the knots), `_densify_polyline()` | `Polyline` |
| mrcal/utils.py:1578-1750 | `write_point_cloud_as_ply()`: the content of the file. The conversion of numbers to float32 and uint8 is given; not: infinities, NaN, negative zeros | `Ply` |
| mrcal-calibrate-cameras:316-923 | the tool: the options, the sizes of the imagers, the sequence of the solves, the files. Given: mrcal.optimize() with its contract (C111), seed_stereographic(), the poses of the boards, the random numbers. Not: the parsing of the command line, the search for corners, the valid-intrinsics region, the reports, --explore | `CalibrateCameras` |
| mrcal/stereo.py:784-819, 978-1308, 1311-1451, 1453-1607 | `stereo_range()`, its Python reference, `stereo_unproject()`, the validation of the rectified models. The conversion to 16-bit integers is modelled; what numpy does with a number that doesn't fit is a parameter. Not: broadcasting, rounding, a scale of 0 | `StereoPy` |
| mrcal-convert-lensmodel:276-911 (all of it after the command line is parsed and the model is read); mrcal/utils.py:440-584 (only the corners in camera coordinates) | The tool: the options that don't go together, the names of the files, --monocular, --where/--radius, the sequence of solves, the sampled fits, the models that are written. mrcal.optimize(), unproject(), the alignment, the random numbers are parameters with contracts. Not modelled: what is printed, the plot (except for which model it shows) | `ConvertLens` |
| calibration.py:1611-1866 (_compute_valid_intrinsics_region, _report_regional_statistics); mrcal-calibrate-cameras:882-906; visualization.py:3160-3220 (imagergrid_using), 3680-3704, 4090-4194 (which statistics and which region are plotted) | the valid-intrinsics region. Given: unproject(), projection_uncertainty(), cv2.findContours() (any function; contracts in the theorems). Not modelled: the plots themselves | `ValidRegion` |
| mrcal-reproject-image:340-616 | the whole tool: which arguments are models, which options may be combined, --fit, output names, the three modes, serial and parallel processing; models, images, maps and the glob are parameters | `ReprojectImage` |
| mrcal-reproject-points:80-100, mrcal-report-fov:70-119, model_analysis.py:2106-2149, mrcal-is-within-valid-intrinsics-region (the keys of the join) | on pixels; reading the numbers as numpy.genfromtxt() does, without NaN; shapely and the vnlog tools aren't modelled | `PointTools` |
| mrcal-from-cahvor:69-102, mrcal-from-ros:121-154, mrcal-to-cahvor:69-99, mrcal/cameramodel.py:1353-1475 (the format), mrcal/cahvor.py:410-417 | the format converters: the names of the targets, which files are written, the standard input, the exit status; reading models and the text of each format are given | `FormatTools` |
| mrcal-triangulate:293-369, 436-450, 547-585, 686-718, 772-782, 825-839, 850-917 | the homography for the feature matcher, the perturbed poses, the search for the largest sensitivity, the correction of the second camera, the axes of the plot | `TriangulateTool` |
| mrcal-stereo:564-1052, 1425-1458 | the names of the files and what is written when, pairs of images, serial and parallel processing, grayscale, stretch, the number of disparities, the point cloud; not the visualizations | `StereoTool` |
| mrcal/utils.py:1213-1285, mrcal-triangulate:455-467, 756-766, mrcal-genpywrap.py:640-718 | sorted_eig(), covariance ellipses, the worst direction, _Jt_x(); numpy's eig and argsort are given | `SortedEig` |
| mrcal-show-residuals-board-observation:136-180, 223-331, 385-387, mrcal/visualization.py:3349-3483 | which observations are shown, the order from the worst, the data of the plots, the exit status; argsort, fnmatch, optimizer_callback() are given; gnuplot isn't modelled | `ShowResiduals` |
| mrcal/visualization.py:214-750 | show_geometry(): which cameras, boards, points are plotted, where; gnuplot and the default scale of the axes aren't modelled; all transforms are Rt | `ShowGeometry` |
| mrcal/visualization.py:834-961, 3486-4087 | show_residuals_histogram(), show_residuals_vectorfield(), show_residuals_magnitudes(), show_residuals_directions(), fitted_gaussian_equation(): the data that's plotted; titles, ranges and gnuplot aren't modelled | `ResidualPlots` |
| mrcal/utils.py:648-746 | polygon_difference(); shapely (version 1) is a parameter | `PolygonDiff` |
| mrcal/visualization.py:753-789, 1909-2156; mrcal-show-projection-uncertainty (--vs-distance-at) | show_projection_uncertainty_vs_distance(): the points, the ray, the distances; the contour increment of heat maps. unproject(), projection_uncertainty() and the corners are given | `VsDistance` |
| mrcal/visualization.py:2157-2402, 2404-2563 | the plots of how far a lens is off a pinhole (the equations as functions) | `OffPinhole` |
| mrcal/visualization.py:2711-3100 | the plot of the correction of a splined model (without the observations) | `SplinedCorrection` |
| mrcal/visualization.py:2566-2709, 3101-3157; mrcal-show-valid-intrinsics-region | the valid-intrinsics region in plots and images, which file is written (not: the image and points in the plot) | `ShowRegion` |
| mrcal/cahvor.py:419-484; mrcal-show-geometry:129-160, 198-214; mrcal/visualization.py:276-292 | the file with transforms (after the regular expressions), which transform is whose, the list of cameras of a solve | `GeometryTool` |
| mrcal/utils.py:1004-1102 | the boundaries in plots of the state and the measurements | `Boundaries` |
| mrcal/calibration.py:783-922 | the pose of a camera from observations of fixed points | `PointPose` |
| mrcal/calibration.py:1103-1183 | the traversal of sensors in python | `LinksPython` |
| mrcal/utils.py:1559-1576 | the rotation aligned to a vector, in python | `AlignedPython` |
| mrcal/visualization.py:966-1036 | the observations drawn on top of a plot | `Overlay` |
| mrcal/visualization.py:1668-1905 | the plot of the projection uncertainty | `UncertaintyPlot` |
| mrcal/visualization.py:1377-1412 | the valid region of the second camera in the plot of a difference | `DiffRegion` |
| mrcal/visualization.py:1582-1647 | the regions and arrows in the plot of the difference of stereo pairs | `StereoPairPlot` |

What is *not* modelled: the nonlinear solver and sparse factorization; convergence; LAPACK/SVD; encoders and decoders of
.png and .jpg; visualization; CLI tools; rounding; most of the Python layer.

## Status per property

| id | property | status | theorems (main ones) |
|----|----|----|----|
| C01 | State-vector layout is a partition | proved | `StateLayout.state_layout_tiles`, `StateLayout.state_loc_in_range`, `StateLayout.state_loc_strictMono`, `StateLayout.state_index_absent_iff` |
| C02 | Measurement-vector layout is a partition | proved | `Meas.meas_layout_tiles`, `Meas.meas_loc_in_range`, `Meas.meas_loc_strictMono`, `Meas.meas_index_absent_iff` |
| C03 | The optimizer callback fills exactly the promised residual and Jacobian storage | proved | `Callback.callback_fills_exactly`, `Callback.callback_rows` |
| C04 | Jacobian column indices are in range and sorted within a row | partial | `Callback.callback_columns_in_range`, `Callback.callback_columns_sorted_partial`, `Callback.board_columns`, `Callback.point_columns`, `Callback.tri_columns`, `Callback.tri_columns_not_sorted` |
| C05 | Outliers do not influence the solve but keep the problem shape | partial | `Callback.outlier_contributes_nothing`, `Callback.outliers_keep_shape`, `Callback.outliers_keep_columns_partial`, `Callback.outlier_point_moves_columns` |
| C06 | Packing and unpacking the state vector are mutual inverses | proved | `Pack.pack_vector_scales`, `Pack.unpack_vector_scales`, `Pack.pack_unpack_vector`, `Pack.pack_unpack_array`, `Pack.pack_unpack_array_roundtrip` |
| C07 | Packing the solver state reads, and unpacking writes, only optimized quantities | proved | `Pack.pack_state_values`, `Pack.unpack_state_values`, `Pack.unpack_pack_state`, `Pack.pack_unpack_state`, `Pack.unpack_keeps_locked` |
| C08 | Triangulated-measurement decoding inverts the enumeration | proved | `Tri.tri_measurements_are_pairs`, `Tri.tri_decode_inverts`, `Tri.tri_terminated_iff` |
| C09 | Triangulated observation ingestion groups consecutive rows | proved | `Ingest.ingest_accepts_iff`, `Ingest.ingest_groups`, `Ingest.ingest_measurements` |
| C10 | Accepted optimization arguments are memory-safe | proved | `Validate.validate_boards_iff`, `Validate.validate_points_iff`, `Validate.validate_sound`, `Validate.validate_accepts_negative_fixed` |
| C11 | Outlier rejection is monotone, magnitude-preserving and makes progress | proved | `Outliers.mark_nothing`, `Outliers.mark_monotone`, `Outliers.mark_progress`, `Outliers.mark_thresholds`, `Outliers.mark_divergent`, `Outliers.mark_board_count` … |
| C12 | Camera index correspondence | proved | `Outliers.corresponding_sound`, `Outliers.corresponding_fails_iff`, `Outliers.corresponding_in_bounds`, `Outliers.corresponding_unobserved`, `Outliers.corresponding_out_of_bounds` |
| C13 | Lens-model name round trip | proved | `Name.splined_roundtrip`, `Name.noconfig_roundtrip`, `Name.cahvore_roundtrip`, `Name.cahvore_lossy`, `Name.lensmodelName_whole`, `Name.params_documented` … |
| C14 | Sensor-link traversal is shortest-path | proved | `Links.traverse_shortest`, `Links.traverse_stops` |
| C15 | Upper-triangular connectivity indexing is a bijection | proved | `Links.pairwise_symm`, `Links.pairwise_range`, `Links.pairwise_injective`, `Links.pairwise_surjective`, `Links.packUpper_length`, `Links.packUpper_lookup` … |
| C16 | Spline weights: partition of unity, positivity and local support | proved | `Spline.cubic_sum`, `Spline.cubic_nonneg`, `Spline.quad_sum`, `Spline.quad_nonneg`, `Spline.surface_constant`, `Spline.surface_partial_x` … |
| C17 | Splined surface is smooth across segment boundaries | proved | `Spline.cubic_surface_C2`, `Spline.quad_surface_C1` |
| C18 | Spline control-point access is in bounds | proved | `Spline.cubic_in_bounds`, `Spline.quad_in_bounds`, `Spline.lens_numParams`, `Spline.ivar_ok` |
| C19 | Zero spline is the stereographic model | proved | `Spline.zero_spline_stereographic` |
| C20 | Pinhole projection: round trip, scale invariance and gradients | partial | `Cam.pinhole_roundtrip`, `Cam.pinhole_roundtrip2`, `Cam.pinhole_scale`, `Cam.pinhole_grad`, `Cam.unpinhole_grad`, `Cam.arrays` … |
| C21 | Stereographic projection: round trip, scale invariance and gradients | proved | `Cam.stereographic_roundtrip`, `Cam.stereographic_roundtrip2`, `Cam.stereographic_scale`, `Cam.stereographic_grad`, `Cam.unstereographic_grad` |
| C22 | Equirectangular (lonlat/latlon) projections: round trip and gradients | proved | `Cam.unlonlat_unit`, `Cam.unlatlon_unit`, `Cam.lonlat_roundtrip`, `Cam.lonlat_roundtrip2`, `Cam.latlon_roundtrip`, `Cam.latlon_roundtrip2` … |
| C23 | OpenCV-model gradients are true derivatives | proved | `Cam.opencv_gradients`, `Cam.opencv_nested`, `Cam.opencv_zero`, `Cam.opencv_reads_own`, `Cam.opencv_scale`, `Cam.opencv_axis` |
| C24 | Calibration-board geometry | proved | `Project.board_order`, `Project.board_flat`, `Project.board_warp`, `Project.board_corners`, `Project.board_symmetric`, `Project.board_max` … |
| C25 | Pose algebra: Rt compose/invert form a group action | proved | `Pose.transform_meaning`, `Pose.transform_inverted`, `Pose.compose_transform`, `Pose.compose_assoc`, `Pose.compose_identity`, `Pose.invert_transform` … |
| C26 | Rodrigues rotations are rotations | proved | `Pose.R_from_r_meaning`, `Pose.R_from_r_rot`, `Pose.R_from_r_neg`, `Pose.R_from_r_axis`, `Pose.R_from_r_gradient`, `Pose.R_from_r_gradient_zero` … |
| C27 | Rodrigues inverse | proved | `Pose.r_from_R_from_r`, `Pose.R_from_r_from_R`, `Pose.R_from_r_from_R_sym`, `Pose.r_from_R_gradient`, `Pose.r_from_R_gradient_sym` |
| C28 | Rotation-vector composition is rotation composition | proved | `Pose.compose_meaning`, `Pose.compose_zero`, `Pose.compose_flags_neg`, `Pose.compose_wants`, `Pose.compose_gradient`, `Pose.compose_tiny_gradient` … |
| C29 | rt compose/invert agree with Rt compose/invert | proved | `Pose.transform_rt_Rt`, `Pose.invert_rt_Rt`, `Pose.compose_rt_Rt`, `Pose.compose_rt_Rt_zero`, `Pose.transform_rt_gradient`, `Pose.transform_rt_wants` … |
| C30 | Forward-mode autodiff is sound | partial | `AD.autodiff_sound_partial`, `AD.autodiff_tracks`, `AD.sinxOverX_inexact`, `AD.sinxOverX_bound` |
| C31 | R_aligned_to_vector is a rotation sending v to z | proved | `Pose.aligned_rotation` |
| C32 | Geometric triangulation is the closest-approach midpoint | proved | `Tri.geometric_closest` |
| C33 | Angular triangulation corrections produce intersecting rays | proved | `Tri.l1_coplanar`, `Tri.l1_moves_one`, `Tri.linf_coplanar`, `Tri.l1_exact_partial`, `Tri.linf_exact_partial` |
| C34 | Perfect observations triangulate exactly | partial | `Tri.geometric_exact_partial`, `Tri.geometric_scale_wrong`, `Tri.l1_exact_partial`, `Tri.l1_sideways_wrong`, `Tri.linf_exact_partial`, `Tri.mid2_exact` … |
| C35 | Divergence penalty blends continuously | proved | `Tri.relu_spec`, `Tri.sigmoid_spec`, `Tri.sigmoid_sharp`, `Tri.triangulated_error_value`, `Tri.triangulated_error_nonneg`, `Tri.triangulated_error_convergent` … |
| C36 | Stereo range inverts disparity | partial | `Stereo.range_latlon`, `Stereo.disparity_latlon`, `Stereo.range_pinhole`, `Stereo.disparity_pinhole`, `Stereo.range_sparse`, `Stereo.range_sparse_points` … |
| C37 | Rectified geometry is a rotation aligned with the baseline | partial | `Stereo.rect_axes`, `Stereo.rect_geometry`, `Stereo.rect_rows`, `Stereo.rect_along_wrong` |
| C38 | Rectification map recurrences equal the direct formula | proved | `Stereo.rectification_maps`, `Stereo.maps_failure_wrong` |
| C39 | The .cameramodel reader accepts exactly the valid files | proved | `ModelFile.read_iff`, `ModelFile.size_wrong`, `ModelFile.sloppy_text` |
| C40 | Pixels, crops and channel order of images | partial | `ImageIO.at_address`, `ImageIO.crop_at`, `ImageIO.bgr_rgb`, `ImageIO.bgr_rgb_involution`, `ImageIO.at_address_wrong` |
| C41 | Color maps follow the documented formulas | partial | `ColorMap.formula_documented`, `ColorMap.auto_min`, `ColorMap.auto_max`, `ColorMap.auto_bounds_integer`, `ColorMap.given_bounds`, `ColorMap.fraction_lin` … |
| C42 | Legacy argument names are honoured | partial | `Kwargs.legacy_honoured_state_index_partial`, `Kwargs.legacy_ignored_when_new_empty`, `Kwargs.legacy_ignored_by_optimize`, `Kwargs.legacy_optimize_not_honoured`, `Kwargs.legacy_optimize_partial` |
| C43 | Default problem selections | partial | `Kwargs.delete_unknown_spec`, `Kwargs.selections_spec`, `Kwargs.default_optimizes_all_partial`, `Kwargs.default_leaves_points_out` |
| C44 | Explicit problem sizes are honoured | partial | `Kwargs.explicit_size_rejected`, `Kwargs.explicit_zero_size_ignored`, `Kwargs.implicit_size_partial` |
| C45 | The measurement-index functions name the residuals that the optimizer writes | proved | `Callback.callback_board_residual`, `Callback.callback_point_residual`, `Callback.callback_tri_residual`, `Callback.callback_reg_residuals`, `Callback.tri_rows_are_pairs` |
| C46 | Outlier counts are consistent | partial | `Outliers.tri_count_partial`, `Outliers.initial_count_partial`, `Outliers.tri_count_wrong`, `Outliers.zero_weight_count_differs`, `Outliers.mark_board_count` |
| C47 | Verbose reporting doesn't change the outcome | partial | `Report.verbose_ok_partial`, `Report.verbose_aborts`, `Report.verbose_aborts_iff` |
| C48 | Malformed lens-model configurations are rejected | partial | `Name.config_meaning_partial`, `Name.bad_config_accepted` |
| C49 | The splined model covers its declared field of view | proved | `Spline.knot_grid`, `Spline.uEdge_meaning`, `Spline.fov_covered`, `Spline.fov_edge`, `Spline.covered_cubic`, `Spline.covered_quad` |
| C50 | Gradients of the splined projection | partial | `Spline.splined_gradient`, `Spline.splined_intrinsics_gradient`, `Spline.stride_wraps` |
| C51 | CAHVOR projection: gradients, central, reduces to pinhole | proved | `Cam.cahvor_gradients`, `Cam.cahvor_distort`, `Cam.distorted_gradients`, `Cam.cahvor_zero`, `Cam.cahvor_scale` |
| C52 | Observation of the board and of points: pixel, order and gradients through the poses | proved | `Project.cam_point`, `Project.ref_point`, `Project.project_corner`, `Project.project_corner_ref`, `Project.project_corner_nowarp`, `Project.project_discrete` … |
| C53 | CAHVORE projection: gradients through the iterative solver | proved | `Cam.cahvore_wants`, `Cam.cahvore_distort`, `Cam.cahvore_gradients`, `Cam.cahvore_upsilon`, `Cam.cahvore_converged`, `Cam.cahvore_implicit` … |
| C54 | CAHVORE with E=0 is central and reduces to CAHVOR and pinhole | proved | `Cam.cahvore_E0`, `Cam.cahvore_cahvor`, `Cam.cahvore_central`, `Cam.cahvore_central_q`, `Cam.cahvore_pinhole` |
| C55 | CAHVORE projection failure reports a zero pixel and zero gradients | partial | `Cam.cahvore_fail_not_zero`, `Cam.cahvore_fail_partial` |
| C56 | Projecting an array of points: pixels and all gradients, every lens model | proved | `Cam.project_succeeds`, `Cam.project_pixels`, `Cam.project_gradients`, `Cam.project_gradients_i` |
| C57 | Projecting an array of points with only the point gradient requested | partial | `Cam.project_gradient_p_partial`, `Cam.project_gradient_p_wrong`, `Cam.project_gradient_p_counterexample` |
| C58 | Unprojection is checked | partial | `Cam.unproject_direct`, `Cam.unproject_projects_partial`, `Cam.unproject_exact`, `Cam.unproject_jacobian`, `Cam.unproject_seed`, `Cam.unproject_seed_opencv` … |
| C59 | Unprojection of CAHVORE with E=0 | partial | `Cam.unproject_cahvore_partial`, `Cam.unproject_cahvore_wrong` |
| C60 | Triangulation failure is distinguishable from a triangulated point | proved | `Tri.geometric_sentinel`, `Tri.l1_sentinel`, `Tri.linf_sentinel`, `Tri.mid2_sentinel`, `Tri.wmid2_sentinel`, `Tri.lind_sentinel` … |
| C61 | The angular triangulation methods are optimal | proved | `Tri.l1_optimal`, `Tri.linf_optimal` |
| C62 | Midpoint triangulation follows the documented formula for any vector lengths | proved | `Tri.mid2_spec`, `Tri.mid2_scale`, `Tri.wmid2_spec`, `Tri.wmid2_scale` |
| C63 | Triangulation gradients are the true derivatives | proved | `Tri.geometric_gradient`, `Tri.mid2_gradient`, `Tri.wmid2_gradient`, `Tri.l1_gradient`, `Tri.linf_gradient`, `Tri.lind_gradient` |
| C64 | The Lindstrom triangulation implements the published niter2 algorithm | partial | `Tri.lind_step12_wrong`, `Tri.lind_exact_partial` |
| C65 | The rectified view stays away from the baseline | proved | `Stereo.az_center`, `Stereo.rect_view`, `Stereo.rect_view_default`, `Stereo.rect_noncentral` |
| C66 | The rectified images cover exactly the requested field of view | partial | `Stereo.rect_latlon`, `Stereo.pinhole_cxy`, `Stereo.rect_pinhole`, `Stereo.rect_width_wrong`, `Stereo.pinhole_fov_wrong` |
| C67 | The automatic rectified resolution matches that of the camera | proved | `Stereo.resolution_auto`, `Stereo.dqDangle_deriv`, `Stereo.centerRay_grad` |
| C68 | The whole stereo pipeline returns the true range | partial | `Stereo.stereo_chain`, `Stereo.rect_rows`, `Stereo.unproject_latlon`, `Stereo.unproject_pinhole` |
| C69 | Reading a model into a preallocated buffer reports the needed size | proved | `ModelFile.into_success`, `ModelFile.into_too_small`, `ModelFile.into_retry`, `ModelFile.into_failure` |
| C70 | A model written by the C library can be read back | proved | `ModelFile.write_read`, `ModelFile.write_read_exact`, `ModelFile.write_read_again`, `ModelFile.write_read_wrong`, `ModelFile.write_size_wrong` |
| C71 | Saved images have the pixels that were given | partial | `ImageIO.save_accepts`, `ImageIO.save_gray`, `ImageIO.save_color`, `ImageIO.save_gray16_partial`, `ImageIO.save_gray16_wrong` |
| C72 | Images are loaded as documented; saving and loading is lossless | proved | `ImageIO.load_accepts`, `ImageIO.load_gray`, `ImageIO.load_gray16`, `ImageIO.load_color`, `ImageIO.save_load` |
| C73 | 16-bit images loaded as 8-bit images are stretched to the full range | partial | `ImageIO.stretch_partial`, `ImageIO.load_stretch_partial`, `ImageIO.stretch_wrong` |
| C74 | The optimizer callback reports the documented residuals and their true Jacobian | proved | `Callback.callback_rows_right`, `Callback.callback_jacobian`, `Callback.callback_partials`, `Callback.cost_gradient`, `Callback.board_row_right`, `Callback.point_row_right` … |
| C75 | Aligning vectors finds the best rotation | partial | `Procrustes.vectors_optimal`, `Procrustes.vectors_api`, `Procrustes.vectors_contiguous`, `Procrustes.vectors_parallel_error`, `Procrustes.vectors_unique_partial`, `Procrustes.vectors_unique_wrong` |
| C76 | Aligning points finds the best rigid transformation | partial | `Procrustes.points_optimal_partial`, `Procrustes.points_balanced_partial`, `Procrustes.points_contiguous`, `Procrustes.points_collinear_error`, `Procrustes.points_weighted_wrong`, `Procrustes.points_scale_wrong` |
| C77 | The cross-reprojection gradient is the optimal compensation | partial | `Uncertainty.cross_reprojection_optimal`, `Uncertainty.cross_reprojection_succeeds_iff`, `Uncertainty.pose_velocity`, `Uncertainty.point_velocity`, `Uncertainty.boards_points_warp_fail_wrong`, `Uncertainty.points_only_fail_wrong` … |
| C78 | Propagated calibration uncertainty is the covariance of the re-optimized result | proved | `Propagate.covariance_correct`, `Propagate.propagate_succeeds_iff`, `Propagate.response_exists_unique`, `Propagate.mean_zero` |
| C79 | Worst-direction and RMS standard deviations are what they say | proved | `Propagate.worst_direction_correct`, `Propagate.worst_direction_reported`, `Propagate.rms_stdev` |
| C80 | The noise estimated from the residuals is unbiased, up to regularization | proved | `Propagate.estimate_formula`, `Propagate.estimate_mean`, `Propagate.estimate_biased_wrong` |
| C81 | projection_uncertainty() reports the covariance of the pixel that results from redoing the calibration | proved | `ProjUnc.gradient_correct`, `ProjUnc.uncertainty_covariance`, `ProjUnc.uncertainty_worst_direction`, `ProjUnc.uncertainty_rms`, `ProjUnc.redone_exists`, `ProjUnc.infinity_direction` … |
| C82 | projection_uncertainty() answers for every calibration that has a unique solution | partial | `ProjUnc.uncertainty_available`, `ProjUnc.gradient_available`, `ProjUnc.fixed_intrinsics_wrong`, `ProjUnc.fixed_extrinsics_wrong` |
| C83 | Pose accessors of a camera model agree | proved | `CamModel.pose_set_get`, `CamModel.pose_default`, `CamModel.pose_only` |
| C84 | Optimization inputs and valid-intrinsics region belong to the intrinsics | partial | `CamModel.consistent`, `CamModel.consistent_unset`, `CamModel.set_accepted`, `CamModel.failed_set_partial`, `CamModel.failed_set_wrong`, `CamModel.region_set` … |
| C85 | Optimization inputs survive being stored in a camera model | partial | `CamModel.inputs_roundtrip`, `CamModel.inputs_stable`, `CamModel.call_succeeds`, `CamModel.old_name_wrong` |
| C86 | Camera models survive being written and read in Python | partial | `ModelPy.write_read`, `ModelPy.write_read_write`, `ModelPy.write_read_exact`, `ModelPy.legacy_read`, `ModelPy.read_pose`, `ModelPy.reset_write_read_wrong` … |
| C87 | C and Python agree on camera model files | partial | `ModelPy.c_reads_python`, `ModelPy.python_reads_c`, `ModelPy.large_region_wrong`, `ModelPy.height_zero_wrong`, `ModelPy.carriage_return_wrong` |
| C88 | .cahvor files mean what the CAHVOR equations say, and models survive them | partial | `CahvorFile.written_equations`, `CahvorFile.write_succeeds_iff`, `CahvorFile.read_pose`, `CahvorFile.read_equations`, `CahvorFile.read_succeeds_iff`, `CahvorFile.write_read_partial` … |
| C89 | OpenCV and ROS files are read with the meaning of their fields | partial | `RosFile.read_iff`, `RosFile.read_ambiguous`, `RosFile.read_rectified`, `RosFile.write_succeeds_iff`, `RosFile.write_read_partial`, `RosFile.pose_wrong` … |
| C90 | Quaternions mean the same rotation as the matrices | proved | `Quaternion.R_from_quat_meaning`, `Quaternion.R_from_quat_rotation_iff`, `Quaternion.R_from_quat_compose`, `Quaternion.quat_from_R_unit`, `Quaternion.quat_from_R_iff`, `Quaternion.quat_R_quat` … |
| C91 | Reprojection maps: each pixel shows what the other camera sees there | partial | `ImageTransform.map_meaning`, `ImageTransform.map_unseen`, `ImageTransform.map_succeeds_iff`, `ImageTransform.opencv_same_partial`, `ImageTransform.along_sees`, `ImageTransform.infinity_limit` … |
| C92 | Fitted pinhole models: the image is as large as possible and nothing requested is lost | partial | `ImageTransform.scale_best_partial`, `ImageTransform.fit_visible_partial`, `ImageTransform.pinhole_model_meaning`, `ImageTransform.scale_image_partial`, `ImageTransform.scale_image_inside`, `ImageTransform.axis_wrong` … |
| C93 | unproject() from Python: the vectors and their gradients | partial | `UnprojectPy.direct_gradients`, `UnprojectPy.main_gradients`, `UnprojectPy.main_gradients_normalized`, `UnprojectPy.main_exists`, `UnprojectPy.smooth_ocv_cahvor`, `UnprojectPy.normalized_orthogonal` … |
| C94 | triangulate(): the reported points are triangulated, and the reported covariances are those of the points | partial | `TriPy.returned`, `TriPy.zero_noise`, `TriPy.points_meaning`, `TriPy.call_forms`, `TriPy.same_points`, `TriPy.exact_point` … |
| C95 | implied_Rt10__from_unprojections() and sample_imager(): the transformation that lines up two cameras' view of the world, from a grid of pixels that covers the image | partial | `ModelDiff.grid_points`, `ModelDiff.grid_inside`, `ModelDiff.grid_corners_partial`, `ModelDiff.grid_square`, `ModelDiff.residual_r_right`, `ModelDiff.residual_rt_right` … |
| C96 | projection_diff(): the difference between camera models is the distance between where they see the same point of the scene | partial | `ModelDiff.diff_meaning`, `ModelDiff.transform_chosen`, `ModelDiff.diff_extrinsics`, `ModelDiff.diff_intrinsics`, `ModelDiff.diff_self`, `ModelDiff.diff_fit_infinity_partial` … |
| C97 | stereo_pair_diff(): the difference between camera pairs is the distance between where their second cameras see what their first cameras see | proved | `ModelDiff.pair_reproject`, `ModelDiff.pair_diff_meaning`, `ModelDiff.pair_reference_free`, `ModelDiff.pair_same`, `ModelDiff.pair_round_trip`, `ModelDiff.pair_accepted` … |
| C98 | model_resolution__deg_pixel() reports the smallest and largest angle covered by a pixel | proved | `Resolution.resolution_meaning`, `Resolution.resolution_clamped`, `Resolution.resolution_succeeds`, `Resolution.resolution_single_wrong` |
| C99 | The frame number of an image is the number in its file name, and its camera is the camera it was given for | partial | `Corners.frames_meaning`, `Corners.frames_padded`, `Corners.frames_single`, `Corners.mapping_meaning`, `Corners.mapping_accepted`, `Corners.mapping_sequential` … |
| C100 | compute_chessboard_corners() reports each corner of each image at its place in the grid, with its weight, in the right camera and frame | partial | `Corners.point_meaning`, `Corners.corners_points`, `Corners.corners_frames`, `Corners.corners_synchronized`, `Corners.corners_accepted`, `Corners.corners_described` … |
| C101 | Seeding a calibration recovers the true poses from consistent data, or reports an error | partial | `Seed.seed_exact`, `Seed.seed_numbered_partial`, `Seed.seed_numbered_wrong`, `Seed.seed_accepted_partial`, `Seed.seed_accepted_wrong`, `Seed.seed_order_wrong` … |
| C102 | A stereographic seed made from exact chessboard images is the true one | partial | `Pnp.pose_exact_partial`, `Pnp.pose_exact_wrong`, `Pnp.pose_front`, `Pnp.seed_stereographic_exact_partial`, `Pnp.seed_stereographic_accepted`, `Pnp.seed_stereographic_focals` |
| C103 | Perfect observations are explained perfectly; the hypothesis points are those of the optimizer | partial | `Perfect.hypothesis_meaning`, `Perfect.perfect_measurements`, `Perfect.noisy_measurements`, `Perfect.mask_changed_wrong`, `Perfect.outliers_lost_wrong` |
| C104 | Cameras survive a conversion to the kalibr format and back; grafting keeps the geometry | partial | `Kalibr.read_chain`, `Kalibr.read_inline`, `Kalibr.read_which`, `Kalibr.inline_which`, `Kalibr.near_identity`, `Kalibr.write_chain` … |
| C105 | mrcal-rotate-corners turns each board as requested, and loses nothing | proved | `CornerTools.rotate_accepts`, `CornerTools.rotate_meaning`, `CornerTools.turned_total`, `CornerTools.rotate_back`, `CornerTools.select_meaning` |
| C106 | mrcal-cull-corners throws out exactly the corners it was asked to throw out | partial | `CornerTools.cull_lines`, `CornerTools.cull_left`, `CornerTools.level_written`, `CornerTools.cull_radius_partial`, `CornerTools.cull_board_partial`, `CornerTools.random_images_partial` … |
| C107 | The python index functions describe the problem that optimize() solves | partial | `IndexApi.state_api_partial`, `IndexApi.state_blocks_partial`, `IndexApi.state_absent_partial`, `IndexApi.lensmodel_checked`, `IndexApi.measurement_api_partial`, `IndexApi.measurement_blocks_partial` … |
| C108 | A changed packed state can be put back into the optimization inputs | partial | `IngestState.ingest_partial`, `IngestState.columns_wrong`, `IngestState.points_wrong`, `IngestState.distortions_wrong`, `IngestState.size_checked` |
| C109 | Synthetic board observations are what the returned board poses produce, and exactly the qualifying boards are returned | partial | `Synthesize.synthesized`, `Synthesize.ends`, `Synthesize.which_checked`, `Synthesize.fewer_frames`, `Synthesize.behind_wrong` |
| C110 | match_feature() reports where the template fits best | partial | `MatchFeature.match_found`, `MatchFeature.match_none`, `MatchFeature.corners_inside`, `MatchFeature.surface_exact`, `MatchFeature.stationary_extremum`, `MatchFeature.best_reported` … |
| C111 | optimize() as a whole: what is left behind by a success, a failure, a refusal | partial | `Solve.optimize_total`, `Solve.divergence_rays`, `Solve.solved_reproducible`, `Solve.cost_not_increased`, `Solve.solved_rms`, `Solve.outliers_only_added` … |
| C112 | Contours: where a splined model is defined, and densified polylines | partial | `Polyline.domain_cubic`, `Polyline.domain_quad_partial`, `Polyline.domain_quad_wrong`, `Polyline.domain_other`, `Polyline.densify_partial`, `Polyline.densify_trivial` … |
| C113 | Point clouds written to .ply files can be read | partial | `Ply.write_accepts_iff`, `Ply.binary_readable`, `Ply.ascii_readable_partial`, `Ply.write_bytes`, `Ply.ascii_bgr_wrong`, `Ply.ascii_precision_wrong` … |
| C114 | mrcal-calibrate-cameras does what its options say | partial | `Calibrate.args_accepted_iff`, `Calibrate.run_iff`, `Calibrate.files_written`, `Calibrate.files_one_solution`, `Calibrate.corners_kept`, `Calibrate.skip_intrinsics` … |
| C115 | stereo_range() and stereo_unproject(): bounds, whole images, lists of pixels, and the reference implementation | partial | `StereoPy.rectified_accepted`, `StereoPy.sparse_value`, `StereoPy.scalar_value`, `StereoPy.sparse_accepted`, `StereoPy.dense_value`, `StereoPy.dense_sparse` … |
| C116 | mrcal-convert-lensmodel: what is solved, what is written, and where | partial | `Convert.solve_converted`, `Convert.seed_tiny`, `Convert.converted_model`, `Convert.region_partial`, `Convert.monocular_views`, `Convert.monocular_poses` … |
| C117 | The valid-intrinsics region of a calibrated camera is made of the cells that meet the stated criteria | partial | `Region.cell_stats_partial`, `Region.corner_number`, `Region.using_matches`, `Region.cell_unique`, `Region.vertex_valid`, `Region.region_shape` … |
| C118 | mrcal-reproject-image writes the reprojections of the given images under the documented names, and nothing else | partial | `Reproject.output_names`, `Reproject.outputs_differ`, `Reproject.files_changed`, `Reproject.no_overwrite`, `Reproject.process_images_partial`, `Reproject.modes` … |
| C119 | The tools that work on pixels report what the models say: mrcal-reproject-points, mrcal-report-fov, mrcal-is-within-valid-intrinsics-region | partial | `PointTools.points_meaning`, `PointTools.points_intrinsics`, `PointTools.points_nan`, `PointTools.points_translation`, `PointTools.points_warning`, `PointTools.points_undo_image_partial` … |
| C120 | The format converters convert each model, and lose no files: mrcal-from-cahvor, mrcal-from-ros, mrcal-to-cahvor | partial | `Format.target_exists_unique`, `Format.target_not_input`, `Format.format_target`, `Format.converts_partial`, `Format.keeps_files`, `Format.only_targets` … |
| C121 | mrcal-triangulate matches features with the right homography, perturbs and corrects poses by rotations of the camera, and reports the largest sensitivity | partial | `TriTool.homography_feature`, `TriTool.homography_plane`, `TriTool.perfect_range`, `TriTool.perfect_plane_wrong`, `TriTool.axis_angle`, `TriTool.perturb_rot` … |
| C122 | mrcal-stereo writes the files of each pair of images into the output directory, never overwrites without --force, and its point clouds have the right positions and colors | partial | `StereoTool.keeps_files`, `StereoTool.only_outputs`, `StereoTool.in_outdir`, `StereoTool.models_only`, `StereoTool.counts_checked`, `StereoTool.all_pairs_partial` … |
| C123 | sorted_eig() sorts the eigenpairs, the worst direction that mrcal-triangulate reports is the worst one, and covariance ellipses are the contours at one standard deviation | proved | `SortedEig.sorted_pairs`, `SortedEig.sorted_eigen`, `SortedEig.extremes`, `SortedEig.worst_direction`, `SortedEig.plane_variance`, `SortedEig.ellipse_contour` … |
| C124 | mrcal-show-residuals-board-observation shows the observations that were asked for, in a correct order from the worst, with their own measurements | partial | `ShowResiduals.argument`, `ShowResiduals.argument_only`, `ShowResiduals.wanted_numbers`, `ShowResiduals.bad_argument`, `ShowResiduals.wanted_globs`, `ShowResiduals.glob_nothing` … |
| C125 | show_geometry() plots each camera, calibration object and point where it is | partial | `Geometry.cameras_meaning`, `Geometry.fromsolve_cameras`, `Geometry.fromsolve_all`, `Geometry.fromsolve_refused`, `Geometry.boards_meaning`, `Geometry.fromsolve_boards` … |
| C126 | The plots of the residuals of a camera show the residuals of that camera, where they were observed | partial | `Residuals.measurements_board_meaning`, `Residuals.measurements_point_meaning`, `Residuals.vectorfield_partial`, `Residuals.magnitudes_partial`, `Residuals.directions_partial`, `Residuals.both_wrong` … |
| C127 | polygon_difference() returns contours without holes whose union is the difference | partial | `Polygon.union_partial`, `Polygon.terminates`, `Polygon.cut_meaning`, `Polygon.tiny_hole_wrong` |
| C128 | The plot of uncertainty vs distance covers the distances that were observed, along the requested ray | partial | `VsDistance.observed_partial`, `VsDistance.observed_corners`, `VsDistance.reference_wrong`, `VsDistance.distances_meaning`, `VsDistance.ray_meaning`, `VsDistance.curve_partial` … |
| C129 | The plots of how far a lens is off a pinhole show what the projection does | partial | `OffPinhole.angle_meaning`, `OffPinhole.opencv_curve`, `OffPinhole.exact_wrong`, `OffPinhole.stereographic_curve`, `OffPinhole.sampled_meaning`, `OffPinhole.sampled_on_curve` … |
| C130 | The plot of the correction of a splined model shows the spline, and where it's defined | partial | `SplinedCorrection.deltau_meaning`, `SplinedCorrection.surface_meaning`, `SplinedCorrection.surface_imager`, `SplinedCorrection.vectors_meaning`, `SplinedCorrection.vectors_imager`, `SplinedCorrection.contour_partial` … |
| C131 | The valid-intrinsics region is shown as it is, and showing it damages nothing | partial | `ShowRegion.curves_meaning`, `ShowRegion.refused_iff`, `ShowRegion.title_meaning`, `ShowRegion.names_wrong`, `ShowRegion.annotate_meaning`, `ShowRegion.tool_partial` … |
| C132 | mrcal-show-geometry shows the cameras that were asked for, with the transforms in the file | partial | `GeometryTool.read_iff`, `GeometryTool.order_free`, `GeometryTool.pose_meaning`, `GeometryTool.incomplete_wrong`, `GeometryTool.pair_meaning`, `GeometryTool.refs_partial` … |
| C133 | Plots of the state and of the measurements label each element with what it is | partial | `Boundaries.state_labels`, `Boundaries.measurement_labels_partial`, `Boundaries.triangulated_wrong` |
| C134 | The pose of a camera from observations of fixed points | partial | `PointPose.parts`, `PointPose.others_ignored`, `PointPose.six_needed`, `PointPose.exact_partial`, `PointPose.unique_planar`, `PointPose.behind_wrong` … |
| C135 | The traversal of sensors in python visits each sensor through a shortest path | proved | `LinksPython.traverse_correct`, `LinksPython.refused`, `LinksPython.sorted_standard` |
| C136 | The python and C implementations of the rotation that's aligned to a vector agree | proved | `AlignedPython.same`, `AlignedPython.rotation` |
| C137 | Observations drawn on top of a plot are those of this camera | partial | `Overlay.drawn`, `Overlay.legend_meaning`, `Overlay.count`, `Overlay.refused`, `Overlay.missing_wrong`, `Overlay.triangulated_wrong` |
| C138 | The plot of the projection uncertainty shows the uncertainty where it's drawn | proved | `UncertaintyPlot.heat_meaning`, `UncertaintyPlot.overlays`, `UncertaintyPlot.refused`, `UncertaintyPlot.title_meaning` |
| C139 | The valid region of the second camera is drawn where the first camera sees it | partial | `DiffRegion.drawn_partial`, `DiffRegion.nothing`, `DiffRegion.empty_refused`, `DiffRegion.three_wrong`, `DiffRegion.intrinsics_only_wrong` |
| C140 | The plot of the difference of two stereo pairs shows each camera's region and each difference in its place | partial | `StereoPairPlot.which_regions`, `StereoPairPlot.first_camera`, `StereoPairPlot.second_camera_partial`, `StereoPairPlot.arrows_meaning`, `StereoPairPlot.infinity_consistent`, `StereoPairPlot.distance_wrong` |


## Deviations found

Each of these is behavior of the code that a user wouldn't expect. If a theorem is named, it's proved about the model.

### Optimization problem

* The Jacobian columns of a pair of triangulated observations aren't sorted if the cameras aren't in increasing order (`tri_columns_not_sorted`).
* A splined model: marking a point observation as an outlier changes which columns its row has (`outlier_point_moves_columns`).
* The reported count of triangulated outliers isn't the number of unused pairs (`tri_count_wrong`).
* A verbose solve aborts in an assertion with unity_cam01 regularization and without the main regularization (C47).
* `optimize()` ignores the legacy argument names that the other functions honour (C42); explicit problem sizes are rejected or ignored (C44); with points but no frames, the default leaves the points out (C43);
  negative `Npoints_fixed` is accepted.
* markOutliers() divides 0 by 0 if no measurements are left (read, not modelled). The test of divergence of triangulated points uses the poses given by the caller, not the solution (`divergence_test_uses_seed_wrong`, C111).
* A solver failure returns without unpacking the state (`failed_arrays_unchanged`), but the outlier marks of earlier passes remain (`failed_marks_kept_wrong`, C111).
* `_pack_unpack_state()` divides by 0 for a problem with an empty state (read, not modelled).

### Lens models and projection

* `mrcal_project_pinhole()` with an array writes only the first pixel (`pinhole_array_wrong`).
* `_mrcal_project_internal()` doesn't advance dq_dp if dq_dintrinsics is NULL (`project_gradient_p_wrong`).
* The stride of splined models is a uint16_t and wraps for Nx >= 32768 (C50).
* A failed CAHVORE projection clears only half of the gradients (C55), and reports the pixel (0,0) (`maps_failure_wrong`).
* A failed unprojection sets only x and y to NaN; a solver failure isn't noticed (C58); the sign of CAHVORE unprojections is flipped where it matters (`unproject_cahvore_wrong`).
* The linearity of CAHVORE is written with 2 digits: lossy (C13). Lens configurations are parsed with sscanf() leniency (C48).
* The autodiff sinx_over_x() has an inexact branch (`sinxOverX_inexact`); the small-angle branch of rotate_point_r() doesn't preserve lengths.

### Triangulation

* Step 12 of the Lindstrom method has the inverse of the published expression (`lind_step12_wrong`).
* Thresholds on unscaled quantities: scaling the observation vectors changes success to failure (`geometric_scale_wrong`); failures for valid fisheye observations (`l1_sideways_wrong`, `lind_behind_wrong`).

### Stereo

* Images of width 0 are a success (`rect_width_wrong`); a PINHOLE elevation field of view beyond 180 degrees gives 360 degrees minus the request (`pinhole_fov_wrong`); cameras looking along the baseline
  give a success with a pose that isn't finite (`rect_along_wrong`).
* Large LATLON disparities have negative ranges (`range_negative_wrong`); `mrcal.stereo_range()` truncates floating-point dense disparities (`stereo_range_float_wrong`), and
  wraps negative int32 disparities (`stereo_range_int32_wrong`).
* Automatic upper bound of color maps of non-positive float images (`auto_max_float_wrong`), overflow of int32 differences (`int32_wrong`).

### Files

* .cameramodel reader: imager sizes wrap, a height of 0 is accepted, several sizes are accepted (`size_wrong`); text after a NUL, mismatched quotes and brackets are accepted (`sloppy_text`).
* .cameramodel writer: "%f" loses precision (`write_read_wrong`); large imagers can't be read back (`write_size_wrong`).
* 16-bit .pgm files have the wrong byte order (`save_gray16_wrong`).
* Stretch equalization misses the maximum if it's in the first pixel; constant images divide 0 by 0 (`stretch_wrong`).
* Color pixels are addressed wrongly if the stride isn't a multiple of 3 (`at_address_wrong`).

### Others

* traverse_sensor_links(): the pairwise index overflows for many sensors (C15).
* align_procrustes_points_Rt01() with weights isn't optimal: the means aren't weighted, and the documented cost has the weights inside of the norm (`points_weighted_wrong`); the test for singular problems is
  absolute (`points_scale_wrong`), and doesn't look at mirrors (`vectors_unique_wrong`).
* drt_cross_reprojection__dbpacked() fails if both points and the board shape are being optimized (`boards_points_warp_fail_wrong`, `warp_point_observations_fail_wrong`), if only
  points are being optimized, though its error message says that this is sufficient (`points_only_fail_wrong`), and if a row of the Jacobian is empty: then the first column of the next row is looked at (`empty_row_fail_wrong`).
  Read, not proved: with an empty last row this reads past the end of Jcolidx; Ncameras_intrinsics = 0 divides by 0; with icam_intrinsics >= 0 and fixed cameras that aren't at the reference the result is a transformation
  in the reference coordinate system, while model_analysis.py applies it in the camera coordinate system.
* The estimate of the input noise from the residuals is biased upwards if there is regularization (`estimate_biased_wrong`): the code says that it ignores this. The correction in its comments
  (tr(Jreg inv_JtJ Jreg^T)) is for the sum of squares of all the residuals, while the code adds up the residuals of the observations only: then it's the squared norm of that matrix (`residual_moment`, `hat_residual`).
* projection_uncertainty() fails if the intrinsics are fixed (`fixed_intrinsics_wrong`): `slice_intrinsics_arg` isn't defined then; "mean-pcam" and "cross-reprojection-rrp-Jfp" fail if the poses are fixed and the
  camera isn't at the reference (`fixed_extrinsics_wrong`): a number is added to None. Read, not proved: `points` (model_analysis.py:1451) doesn't exist; if the `do_optimize_frames` key is missing in the optimization inputs,
  then it's optimized, but `optimization_inputs.get('do_optimize_frames')` at line 1447 is None, and the check for points is skipped.
* mrcal.cameramodel objects: optimization_inputs() of a copied model, mrcal.cameramodel(model), always raises an exception (`copy_wrong`): the byte string is converted with str(), and "b'" isn't base-85. If the optimization
  inputs can't be serialized (both the old and the new name of the poses are given, and differ), then intrinsics() raises an exception after it has replaced the intrinsics: the old optimization inputs and the old region
  remain (`failed_set_wrong`); the same happens if inferring icam_extrinsics fails. Poses with their old name are lost if the new name is present with None (`old_name_wrong`). Read, not proved: intrinsics(icam_extrinsics = ...)
  without other arguments is treated as a getter.
* .cameramodel files in Python: optimization_inputs_reset() keeps the camera indices, and a file that's written then can't be read (`reset_write_read_wrong`). write() keeps 10 digits only (`write_read_digits_wrong`).
  A region with coordinates of 1e10 or more is written with an exponent "e+10" that the C reader doesn't accept (`large_region_wrong`). The C library reads and writes imagers without rows, Python rejects them
  (`height_zero_wrong`). A carriage return ends a comment for Python, but not for C: a file can mean different things for the two readers (`carriage_return_wrong`).
* .cahvor files: a CAHVOR distortion R shorter than 1e-8 is dropped when reading (`CahvorFile.write_read_wrong`). `A = 0 0 1` is an error, since an array of integers can't be divided in place, while `A = 0.0 0.0 1.0` is fine
  (`integer_axis_wrong`). An empty valid-intrinsics region is written as an empty value that can't be read (`empty_region_wrong`). Read, not proved: a CAHVORE linearity in exponential notation can be read, but not
  written; write() ignores the note if it's given an open file; a file with skewed or left-handed axes is read with an orthogonal V (with a warning); negative focal lengths come back positive.
* OpenCV/ROS files: the rotation is looked up as `rotation` or `R`, but in the files ROS writes (the sample in the documentation of the function) it's the `rectification_matrix`: it's silently ignored, while the translation in P
  is used (`rectification_wrong`). Any malformed rotation is ignored too. A mirror is accepted as a rotation (`mirror_wrong`). The writer doesn't write the pose (`pose_wrong`), which its comments say.
* Reprojection: "this branch works identically" (the OpenCV path of image_transformation_map()): a relative rotation of up to 1e-6 is ignored there (`opencv_same_wrong`). "Any scaling is compensated in plane_d": with a negative
  plane_d the homography is negated, and lens models that see behind the camera look in the opposite direction (`plane_sign_wrong`). scale_focal__best_pinhole_fit(): a ray with x=0 exactly makes the scale -infinity
  (`axis_wrong`): this is what 'centers-vertical' does with a centered pinhole camera. scale_image with cx=0 produces a NaN center (`center_wrong`). Read, not proved: an unknown `fit` raises a TypeError, since the
  exception is created with the `file` keyword.
* Python unproject(): a pixel that cannot be unprojected is reported as (0,0,0) with normalize=True ("unit vectors"), as NaN with get_gradients=True (`failed_wrong`). Read, not proved: `raise("...")` at projections.py:409 raises a string;
  one pixel with a singular gradient raises LinAlgError for the whole array.
* triangulate(): a lens model without distortions, with do_optimize_intrinsics_distortions=False: `slice(None,-0)` is empty, and requesting the calibration-time uncertainty raises an exception (`core_only_wrong`). A triangulation that
  failed is (0,0,0), with Var_p_observation=0 (`failed_variance_wrong`). method=triangulate_lindstrom raises if any noise is given (`lindstrom_wrong`; documented). Read, not proved: if no noise is given Var_p_joint aliases Var_p_calibration;
  `triangulate_lindstrom(v_are_local=False)` uses `Rt01[:3,:]` instead of `Rt01[...,:3,:]`, so a broadcasted Rt01 is sliced along the wrong axis; the same camera given twice overwrites its gradient columns; a negative correlation isn't expressible (the
  covariance is (correlation*stdev)^2); calibrations with points only treat the reference coordinates as fixed.
* implied_Rt10__from_unprojections(): rotate_point_r() isn't a rotation for angles under 1e-5, and the solver is seeded with such angles: comparing vectors to themselves, an exact optimum of the residuals can be a nonzero rotation
  (`fit_same_wrong`). sample_imager(): with one column or row the documented bottom-right corner isn't included (`grid_corner_wrong`).
* projection_diff(): with the default distance=None (infinity) and focus_radius=0 the translation between the cameras is applied at a distance of 1 (`infinity_extrinsics_wrong`). Pixels that cannot be unprojected become zero vectors with
  a weight of 1: they are reported with finite numbers, and they pull on the finite-distance fit, although the comment says that they are cleaned up (`failed_reported_wrong`). CAHVORE models with 0<|E|^2<1e-12 are meant to be used as central
  models, but always raise an exception (`tiny_wrong`).
* stereo_pair_diff(): any noncentral model raises an exception, since `np.norm2` doesn't exist: models that the code says are acceptable are not (`pair_cahvore_wrong`).
* model_resolution__deg_pixel(): a single pixel (`q` of shape (2,)) raises a TypeError: numpy scalars cannot be assigned to (`resolution_single_wrong`).
* mapping_file_framenocameraindex() (utils.py:896) refuses file names of the form it asks for ('something..number..something') if all the numbers start with the same digits and one of the numbers is just those digits: images 1 and 10, or 1, 10, 11, ..., 19. The middle of the first name is empty, and an empty string isn't numeric. With one camera the exception is caught, and the images are numbered sequentially (`frames_unpadded_wrong`)
* compute_chessboard_corners() throws out images with exactly Npoint_observations_per_board_min corners (`>` in calibration.py:327); the documentation says "fewer than this many" (`corners_min_wrong`)
* compute_chessboard_corners(): "nan" coordinates or a "nan" weight are accepted as a valid point (comparisons with NaN are false, calibration.py:386, 405) (`corners_nan_wrong`)
* compute_chessboard_corners(corners_cache_vnl='corners.vnl'): the directory of the file is '' and not None, so an image that doesn't exist in the current directory is reported as '/img.jpg' (calibration.py:333-336) (`corners_path_wrong`)
* compute_chessboard_corners(): an image with a single line that has valid coordinates is ignored and not an error (calibration.py:322); file names like img012, img12 of one camera are two images of the same frame and the same camera; if two images have the same path after the directory was replaced, the first one is lost without an error
* Seeding: the connectivity matrix is uint16: 65536 shared frames count as none (`seed_accepted_wrong`), so well-connected cameras are rejected.
* Seeding: cameras that aren't in increasing order within a frame are counted as sharing that frame, but compute_pairwise_Rt() skips them; if all are like this the fit gets no points, which is an exception (`seed_order_wrong`).
* Seeding: a frame index that nobody observed: the poses after it have a smaller index than their frame (`seed_numbered_wrong`). The documentation indexes rt_ref_frame by the frame.
* Seeding: the number of cameras is 1 + the largest index in the observations. If the last camera saw nothing it's silently left out of rt_cam_ref (a middle camera that saw nothing is an error).
* Seeding: a fit that is reported as singular is an all-0 transformation, which is used without a check. This happens for chessboards that are small in the given units.
* PnP pose (calibration.py:508-620): a chessboard whose first corner is not in front of the camera (t.z <= 0), all others being in front, is rejected or retried with a different focal length: the true pose is never returned (`pose_exact_wrong`). The retries at scales 1.5 and 0.7 solve with a wrong focal length; their result is not claimed to be right.
* The documentation of the same function says that observations with x<0 or y<0 or weight<0 are ignored; only weight>0 is checked, so weight=0 is ignored also, and negative pixel coordinates are used.
* At least 6 points are required, but 6 collinear points are accepted, and do not determine the pose; `FourPoints` (no three of some four are collinear) is a hypothesis.
* `seed_stereographic()`: `focal_estimate * Ncameras` with a numpy array of length 1 multiplies the value instead of repeating it; modelled for lists and tuples.
* `hypothesis_board_corner_positions()` (utils.py:577): with icam_intrinsics given, the caller's `idx_inliers` array is modified in place: the flags of the other cameras are cleared (`mask_changed_wrong`). A second call with the same array for another camera then reports no inliers.
* `make_perfect_observations()` (synthetic_data.py:745-747): `weight[weight<=0] = 1` writes into a view of the observations (nps.dummy() is np.expand_dims(): assumed to return a view). If noise is added, all outliers become inliers with weight 1 (`outliers_lost_wrong`). If no noise is added, they stay outliers.
* mrcal-to-kalibr: T_cn_cnm1 of the first camera is omitted if its pose is within about 1e-6 (m, rad) of the identity, so it is read as the identity (`Kalibr.first_dropped_wrong`).
* mrcal-from-kalibr: the check is that T_cn_cnm1[:3,:3] is orthogonal, so a mirrored matrix is accepted (`Kalibr.mirror_wrong`). After the error messages about the shape and the last row of T_cn_cnm1 the tool exits with status 0 (mrcal-from-kalibr:266, 270).
* mrcal-to-kalibr writes `repr(list(...))` of numpy numbers: with numpy 2 this is `np.float64(...)`, which isn't a yaml number. PyYAML reads numbers like 1e-05 as strings; the intrinsics are converted to float, but T_cn_cnm1 and the CAHVOR vectors aren't. Not modelled (found by reading).
* mrcal-cull-corners `--cull-random-observations-ratio` (mrcal-cull-corners:270): the corners are read with weight_column_kind='weight', and written as levels. Level 0, which is a detection at full resolution, is taken for "not detected" (`CornerTools.random_level0_wrong`, `level_survives`). If all corners are at level 0 the tool fails.
* mrcal-cull-corners `--cull-left-of X` throws out x = X too; the documentation says "x < the given value" (`left_equal_wrong`).
* mrcal-cull-corners `--cull-rad-off-center D` with D<0 and |D| more than half the diagonal: the (negative) radius is squared, so the points near the center are kept (`rad_negative_wrong`).
* mrcal-cull-corners `--cull-rad-off-center-board`: a corner that wasn't found (no coordinates) isn't counted, so that all the corners after it are taken for their predecessors (`board_missing_wrong`). The same happens with lines that the regular expression doesn't match.
* mrcal-cull-corners: a ratio of 0, or a board radius of 0, is falsy, so that the check for --object-width-n is skipped; the tool then stops with an exception (mrcal-cull-corners:134-160). Modelled as a failure.
* `num_measurements()` given None for `indices_point_triangulated_camintrinsics_camextrinsics` uses None as an array: mrcal-pywrap.c:3196 compares with NULL only (`num_measurements_none_wrong`, C107).
* A negative `Npoints_fixed` is accepted by `optimize()`; the state then has more points than the array does (`negative_fixed_wrong`, C107).
* `measurement_index_boards()` and `measurement_index_points()` don't check the bounds of the given index (read; C107 says nothing about such an index).
* `ingest_packed_state()` with more than one camera, and only the core or only the distortions being optimized: `intrinsics[:,i0:i1].ravel()` is a copy, so the intrinsics silently aren't updated (`columns_wrong`, C108).
* `ingest_packed_state()` with points, none of which is fixed: `[:-0]` is empty, so there's an exception (`points_wrong`, C108). The same with a lens model without distortions, and the distortions locked (`distortions_wrong`).
* `synthesize_board_observations()` decides what's visible by the pixel coordinates only: a board behind the camera can be returned as fully visible (`behind_wrong`, C109).
* `synthesize_board_observations(which=...half-board)` requires more than half of the corners; the documentation says at least half (`synthesized`, C109: `SeesHalf`).
* `match_feature()` reports the stationary point of the fitted surface, even if it's a saddle point, which may be far from the best score (`saddle_wrong`, C110); if there's no stationary point then the reported pixel isn't finite (`degenerate_wrong`). The documentation says that q1 is None then.
* `match_feature()` accepts a template at x in (width-1,width) in image0 (`template_edge_wrong`, C110), and checks the corners of the template only (`template_projective_wrong`).
* `mrcal.optimize()` in python: the marks on the triangulated observations are lost: `mrcal.optimizer_callback()` with the same arguments reports other residuals (`python_tri_outliers_lost_wrong`, C111).
* rms_reproj_error__pixels is documented as sqrt(norm2(x)/N) with len(x) = 2N; the code divides by len(x) (`rms_documented_wrong`, C111). Noutliers_triangulated_point is documented to include the outliers passed in: without outlier rejection it's 0 (`tri_outliers_not_counted_wrong`).
* mrcal_optimize(check_gradient = true) dereferences NULL if a buffer was given; otherwise it reports an RMS of NaN (`check_gradient_wrong`, C111).
* `_splined_stereographic_domain()` with order 2 and Nx = 3: the first row of the contour is empty, so it isn't closed, and misses a part of the boundary (C112 `domain_quad_wrong`).
* `_densify_polyline()` drops segments shorter than a millionth of the spacing, so a finely sampled polyline of any length is reduced to one point, which comes back with shape (2,). Steps may be up to a millionth longer than the spacing (C112 `densify_short_wrong`, `densify_spacing_wrong`, `densify_single_wrong`).
* `write_point_cloud_as_ply(binary=False)`: with BGR colors a seventh column (255) is written, but the header declares six properties, so the file is malformed. The coordinates have one digit after the point. Colors aren't limited to bytes (C113 `ascii_bgr_wrong`, `ascii_precision_wrong`, `ascii_range_wrong`).
* mrcal-calibrate-cameras with a splined lens model and no --seed: line 466 takes the mean of the focal lengths of all the cameras, assigns it to all of them, and the core is locked from there on. The values of --focal for each camera, and what the solver found for each, are lost (C114 `spline_focal_shared_wrong`, `spline_focal_lost_wrong`).
* `_validate_models_rectified()` says that the translation must be in the +x direction, but checks only that it's along x: the rectified models in the wrong order, or twice the same one, are accepted (C115 `swapped_wrong`). `stereo_range()`: a bound given both scaled and in pixels is accepted if the numbers are equal, and then images and lists disagree (`both_wrong`). For whole images the scale and the lower bound are truncated to integers, and a large upper bound wraps around or raises, depending on numpy (`scale_truncated_wrong`, `min_truncated_wrong`, `max_wrapped_wrong`). The reference implementation differs for floating-point images (`reference_float_wrong`).
* mrcal-convert-lensmodel: without --force, existing files are to be left alone. The check (line 364) looks for a file whose name contains the literal text "{CAMID}", which is replaced later: the files that are written are never looked for (`Convert.overwrites_wrong`).
* mrcal-convert-lensmodel --monocular: for a camera at the reference, the extrinsics of the other cameras stay in the problem (lines 462-477). With 3 cameras or more the tool then fails in mrcal.cameramodel(), after all the solves (`Convert.monocular_reference_wrong`).
* mrcal-convert-lensmodel --radius: a margin of more than the diagonal of the image leaves a negative radius, which is squared: nothing is ignored (`Convert.margin_wrong`).
* mrcal-convert-lensmodel --all --viz: the variable m_to is overwritten in the loop over the cameras: the plot compares the input to the last camera (`Convert.viz_last_wrong`). The documentation says that --radius and --where aren't allowed without --sampled; the code and the help of the options do allow them.
* mrcal-calibrate-cameras --valid-intrinsics-region-parameters: the help says "mean-abs-residuals", but the mean of the residuals is compared, without abs(): a large negative bias passes (`Region.mean_wrong`). The help says "at least [3] observations", but the count is of residuals (2 for each observation) and has to be larger: 2 observations are enough; and with fewer than 3 observations the mean and stdev are reported as 0, and pass (`Region.count_wrong`). Only the outer contour is used: invalid cells inside are included (`Region.holes_wrong`). If round(H/W*30) is 1, there's a division by 0 and the model gets no region (`Region.narrow_wrong`).
* visualization.py: show_residuals_regional() calls _report_regional_statistics(model) without its arguments gridn_width, gridn_height, x (`Region.show_regional_wrong`). _get_show_residuals_data_onecam() tests `valid_region.size is None` and `valid_region == 0` instead of `valid_region is None` and `valid_region.size == 0`: with valid_intrinsics_region = True (the default) there's an exception if the model has no region, and if the region isn't empty (`Region.plot_region_wrong`).
* mrcal-reproject-image (C118). --outdir with images of the same name from two directories: the second output replaces the first, without --force (`collision_wrong`).
* mrcal-reproject-image. In the mode with two sets of images "Doing nothing, and giving up" is printed after the first set was written (`pair_wrong`).
* mrcal-reproject-image. With --jobs N, N>1, exceptions in the workers are never looked at: nothing is written and the exit status is 0 (`jobs_wrong`). Images that can't be read or have the wrong size are skipped with exit status 0, also with one job; so are names that match no file (`skipped_wrong`).
* mrcal-reproject-image. Extensions other than three letters (.jpeg, .tiff) are refused (`extension_wrong`). --fit accepts numbers with a decimal point in its test, and then fails in int() (`fit_fraction_wrong`).
* mrcal-reproject-image. Not proved, noted while reading: the synopsis shows "-pinhole.jpg" for --to-pinhole with one model, but the suffix is "-reprojected"; the test for "-" (lines 375-378) can't succeed.
* mrcal-report-fov (C119). The tests for "undefined" of the horizontal and corner-corner fields of view look at the vertical angles (lines 115, 118): known angles are reported as "undefined", unknown ones as "nan" (`fov_undefined_wrong`, `fov_nan_wrong`). If the principal point isn't between the edges, the two angles are added where they should be subtracted (`fov_outside_wrong`).
* mrcal-reproject-points (C119). An empty input raises an exception (`points_empty_wrong`); a column of two numbers is taken for one pixel (`points_column_wrong`).
* mrcal-is-within-valid-intrinsics-region (C119). The keys are printed with %06d "so it's already sorted": not with a million records (`keys_wrong`).
* mrcal-from-cahvor, mrcal-from-ros, mrcal-to-cahvor (C120): `sys.exit(0)` at the first input that has the extension of the output: the inputs after it aren't converted, and the tool succeeds (`named_stops_wrong`). cameramodel.write() opens the file before it knows that the model can be written: mrcal-to-cahvor leaves an empty file for a lens model that .cahvor doesn't have; the next run says that it exists, and succeeds (`failed_write_wrong`); with --force a good file is lost (`force_lost_wrong`). Two inputs with the same target: one isn't converted, and the tool succeeds (`collision_wrong`).
* cahvor.write() doesn't pass the note to _write() for an opened file, and cameramodel.write() always gives it one: notes are lost in .cahvor files (C120, `note_wrong`).
* mrcal-triangulate: with --plane-n --plane-d the message says that the pixel is at the distance --range-estimate; it's on the plane (`TriTool.perfect_plane_wrong`).
* mrcal-triangulate --make-corrected-model1: an error of 1e6 is used for diverging rays, but a point 1km or more from the estimate has this error too, although the rays converge (`TriTool.far_wrong`); if no start is found, `dyaw` isn't set and the tool ends with a NameError instead of the message that follows (`TriTool.correct_wrong`).
* mrcal-stereo: both rectified images of a pair are named after the image files without their directories: left/0.png and right/0.png get the same file. Without --force the one of camera 1 isn't written, with --force the one of camera 0 is lost (`StereoTool.same_name_wrong`).
* mrcal-stereo: the result of process() isn't used, and with several jobs all exceptions are ignored: the tool succeeds with nothing written (`StereoTool.refused_wrong`, `StereoTool.parallel_wrong`).
* mrcal-stereo --force-grayscale (and --equalization): np.mean(..., dtype=images.dtype) computes the sum of the channels with this type: it overflows with 8-bit images (`StereoTool.gray_wrong`).
* mrcal-stereo --disparity-range: the range is changed to the nearest multiple of 16, which may be smaller: disparities that were asked for aren't searched; a range of at most 8 becomes 0 (`StereoTool.disparities_wrong`).
* mrcal-stereo --equalization stretch: 0/0 for a constant image (`StereoTool.stretch_wrong`).
* mrcal-show-residuals-board-observation: the exit status of the processes that plot isn't looked at: the tool succeeds if an observation doesn't exist, and nothing is shown (`ShowResiduals.windows_wrong`).
* mrcal-show-residuals-board-observation: a reversed range is accepted, and means nothing (`ShowResiduals.reversed_range_wrong`).
* mrcal-show-residuals-board-observation --hardcopy --from-glob: the number of observations is checked before the glob is expanded; if it matches several images, each plot overwrites the file (`ShowResiduals.hardcopy_glob_wrong`).
* show_geometry(show_points='thiscamera', point_labels=...): the labels are put on the wrong points: the indices are used after the selection (`Geometry.labels_wrong`).
* show_geometry(point_labels={}): IndexError: np.array([]) isn't an array of integers (`Geometry.no_labels_wrong`).
* show_geometry() with a model file that has optimization_inputs, but no icam_extrinsics: TypeError when boards or points are shown, even all of them (`Geometry.no_extrinsics_wrong`).
* show_residuals_vectorfield(), show_residuals_magnitudes(), show_residuals_directions() of a solve with boards and points: the (N,2) and (M,2) arrays are glued along axis -1 instead of -2: an exception if N and M differ, also if there are no points, but observations_point is an empty array; if they don't differ, the points are left out, and their residuals change the colors of the corners (`Residuals.both_wrong`).
* polygon_difference(): the line that cuts a hole open extends 99 times its half-length beyond the hole. If the polygon is larger than that, no line cuts it, and the whole polygon is dropped: a small region that's missing in the middle of a large one means that the difference is reported to be empty (`Polygon.tiny_hole_wrong`). In shapely version 2 `len(s)` of the result of split() is a TypeError: this isn't modelled.
* show_projection_uncertainty_vs_distance(): the default method 'cross-reprojection-ccp' isn't in its list of known methods: with the default arguments there's always an exception; so also mrcal-show-projection-uncertainty --vs-distance-at (`VsDistance.default_wrong`).
* visualization.py:1946 overwrites the poses that were looked up with the reference camera included: the index -1 then means the last camera. Points observed by a camera at the reference are used in the coordinates of another camera; in a monocular solve that's an exception (`VsDistance.reference_wrong`).
* mrcal-show-projection-uncertainty --vs-distance-at ignores --observed-pixel-uncertainty; without optimization_inputs it reports an error with exit status 0 (`VsDistance.tool_wrong`).
* `show_distortion_off_pinhole(vectorfield=True)` (visualization.py:2537-2545) replaces the caller's `_set` by an outline of the imager, then deletes it: neither is passed on (`Mrcal.OffPinhole.outline_wrong`).
* `show_distortion_off_pinhole_radial()`: the equations are said to plot OpenCV models exactly. With tangential distortion or thin prisms they don't (`Mrcal.OffPinhole.exact_wrong`).
* `show_splined_model_correction()`: visualization.py:2902 isn't an f-string, so that the title says `deltau{xy}` (`Mrcal.SplinedCorrection.title_wrong`). If `polygon_difference()` throws, nothing is said about regions that aren't covered (`silent_wrong`). A valid-intrinsics region with one vertex is an exception unless `imager_domain` (`single_wrong`).
* `show_valid_intrinsics_region()` (visualization.py:2667) appends ": empty" to the names in the caller's list; names in a tuple are an exception then (`Mrcal.ShowRegion.names_wrong`).
* mrcal-show-valid-intrinsics-region defines target_image_filename() twice (lines 139-151, 153-161). The second one has no check, so existing images are overwritten without --force (`Mrcal.ShowRegion.overwrite_wrong`). The tool always passes a title, None by default, so that the default title is never used (`tool_title_wrong`).
* `cahvor.read_transforms()` (cahvor.py:475) checks that no value is None, but ins_from_camera is a dict and never is: files without cam2ins aren't refused (`Mrcal.GeometryTool.incomplete_wrong`). `raise("...")` in lines 452, 465 raises a TypeError instead of the message.
* mrcal-show-geometry --transforms passes None for models without a transform; show_geometry() accepts no None in its list, so nothing is plotted (`Mrcal.GeometryTool.missing_wrong`). Swapped ranges in --icam-extrinsics-from-solve are accepted (`swapped_wrong`).
* `plotoptions_measurement_boundaries()` (utils.py:1097-1100) has no boundary for triangulated points: their measurements are labelled as something else (`Mrcal.Boundaries.triangulated_wrong`).
* `_estimate_camera_pose_from_point_observations()` takes the points to be behind the camera if their origin is, so a camera that has moved past the origin is never found (`Mrcal.PointPose.behind_wrong`); observations with x<0 or y<0 are used, though documented to be ignored (calibration.py:863-864; `negative_wrong`).
* `_append_observation_visualizations()` draws corners that weren't detected, which are at (-1,-1), as outliers (visualization.py:985-988; `Mrcal.Overlay.missing_wrong`), and doesn't draw triangulated points (`triangulated_wrong`).
* `show_projection_diff()` (visualization.py:1395-1397) relies on numpy refusing to multiply an (N,3) array by a list of distances; with three of them it doesn't refuse, and x, y, z are each scaled with one of the distances (`Mrcal.DiffRegion.three_wrong`). With intrinsics_only (1389) the region of the second camera is drawn in the second camera's own pixels (`intrinsics_only_wrong`).
* `show_stereo_pair_diff()` (visualization.py:1634-1636) draws the region of the second camera at the given distance from the second camera; the distance is documented to be from the first one (1498-1499), as in the differences it's drawn on (`Mrcal.StereoPairPlot.distance_wrong`).
