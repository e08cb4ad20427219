{"id": "C01", "title": "State-vector layout is a partition", "statement": "The blocks reported by mrcal_state_index_{intrinsics,extrinsics,frames,points,calobject_warp}() with the block sizes implied by mrcal_num_states_*() tile the index range [0, mrcal_num_states()) exactly: every state variable belongs to exactly one block, blocks appear in the order intrinsics (per camera), extrinsics (per camera), frames (per frame), variable points, warp; an index query returns -1 exactly when that item is not being optimized or its index is out of range.", "quantifier": "all camera/frame/point/observation counts, all problem-selection bit combinations, all lens models and configurations", "why_tests_cant": "The space of counts x selections x models is unbounded; a gap or overlap at one combination silently corrupts the solve.", "anchors": ["mrcal.c: mrcal_state_index_intrinsics, mrcal_state_index_extrinsics, mrcal_state_index_frames, mrcal_state_index_points, mrcal_state_index_calobject_warp, mrcal_num_states*"]}
{"id": "C02", "title": "Measurement-vector layout is a partition", "statement": "The blocks reported by mrcal_measurement_index_{boards,points,points_triangulated,regularization}() and mrcal_num_measurements_*() tile [0, mrcal_num_measurements()) exactly, in the order boards, points, triangulated, regularization; a query returns -1 exactly when there is no such measurement block.", "quantifier": "all observation counts, board sizes, triangulated sets, selections, lens models", "why_tests_cant": "Unbounded combinations; consumers slice the measurement vector with these numbers.", "anchors": ["mrcal.c: mrcal_measurement_index_boards, mrcal_measurement_index_points, mrcal_measurement_index_points_triangulated, mrcal_measurement_index_regularization, mrcal_num_measurements*"]}
{"id": "C03", "title": "The optimizer callback fills exactly the promised residual and Jacobian storage", "statement": "One evaluation of the cost function writes every entry of x (mrcal_num_measurements() of them) exactly once and in order, writes exactly the number of Jacobian entries the allocator was told about, and the row-pointer array is monotone, starts at 0 and ends at that number.", "quantifier": "all problems: counts, selections, lens models, camera assignments (including reference-camera observations), fixed points, outlier patterns, triangulated sets", "why_tests_cant": "The count and the fill are computed by two separate pieces of code; a mismatch is heap corruption, and only for certain combinations.", "anchors": ["mrcal.c: optimizer_callback, _mrcal_num_j_nonzero, mrcal_num_measurements"]}
{"id": "C04", "title": "Jacobian column indices are in range and sorted within a row", "statement": "Every Jacobian entry refers to a state variable in [0, mrcal_num_states()), belongs to a variable that is actually being optimized, and the column indices in each row are strictly increasing (the matrix is declared sorted to the sparse solver).", "quantifier": "all problems; for triangulated points the ordering claim is limited to pairs whose cameras are in increasing extrinsics order", "why_tests_cant": "Depends on every combination of selections; an out-of-range column is a memory error in the solver.", "anchors": ["mrcal.c: optimizer_callback; mrcal-pywrap.c: _optimize (Jt.sorted = 1)"]}
{"id": "C05", "title": "Outliers do not influence the solve but keep the problem shape", "statement": "Flipping the inlier/outlier state (weight sign) of a board corner, point or triangulated observation never changes the number of measurements, the number of Jacobian entries or their column indices; and an outlier board corner / point contributes exactly 0 to the residual vector and to the Jacobian values.", "quantifier": "all problems and all outlier patterns", "why_tests_cant": "Outlier patterns are exponential in the number of observations.", "anchors": ["mrcal.c: optimizer_callback"]}
{"id": "C06", "title": "Packing and unpacking the state vector are mutual inverses", "statement": "mrcal_unpack_solver_state_vector() after mrcal_pack_solver_state_vector() (and vice versa) returns the original vector, both touch exactly mrcal_num_states() entries and each entry is scaled by a nonzero constant that depends only on the kind of variable.", "quantifier": "all problems, all real state vectors", "why_tests_cant": "Counting/striding bugs show up only at particular sizes.", "anchors": ["mrcal.c: mrcal_pack_solver_state_vector, mrcal_unpack_solver_state_vector; scales.h"]}
{"id": "C07", "title": "Packing the solver state reads, and unpacking writes, only optimized quantities", "statement": "pack_solver_state() followed by unpack_solver_state() onto any other set of parameter arrays yields the original values for each optimized quantity and leaves each non-optimized quantity (locked core/distortion parameters, fixed points, locked poses, warp) unchanged.", "quantifier": "all problems, all parameter arrays", "why_tests_cant": "Needs to hold for each selection combination, count and content.", "anchors": ["mrcal.c: pack_solver_state, pack_solver_state_intrinsics, unpack_solver_state, unpack_solver_state_intrinsics"]}
{"id": "C08", "title": "Triangulated-measurement decoding inverts the enumeration", "statement": "mrcal_decode_observation_indices_points_triangulated(imeasurement) returns exactly the pair of observations whose error the optimizer stores at measurement_index_points_triangulated + imeasurement, plus the right point index, first observation and counts; and it fails exactly when imeasurement is past the end.", "quantifier": "all collections of triangulated points with any number (>=2) of observations each, all measurement indices >= 0", "why_tests_cant": "Uses a floating square root to invert a triangular-number formula; correctness at perfect squares for all N is a theorem, not a sample.", "anchors": ["mrcal.c: mrcal_decode_observation_indices_points_triangulated, mrcal_num_measurements_points_triangulated, optimizer_callback"]}
{"id": "C09", "title": "Triangulated observation ingestion groups consecutive rows", "statement": "If the python index table of triangulated observations is accepted, then points are numbered 0,1,2,... consecutively, each is observed at least twice, the end-of-set flags are set exactly on the last row of each point (in particular on the last row overall), and the number of triangulated measurements is the sum over points of n(n-1)/2. Otherwise an error is raised.", "quantifier": "all index tables", "why_tests_cant": "All row orders must be considered; the C loops run off the end of the array if the flag is missing on the last row.", "anchors": ["mrcal-pywrap.c: fill_c_observations_point_triangulated, _finish_triangulated_set; mrcal.c: mrcal_num_measurements_points_triangulated"]}
{"id": "C10", "title": "Accepted optimization arguments are memory-safe", "statement": "If mrcal.optimize()/optimizer_callback() accepts the index tables, then each board observation refers to an existing frame, camera intrinsics and extrinsics (-1 = reference), each point observation to an existing point and cameras; frames and points are all covered with no gaps.", "quantifier": "all index tables and counts", "why_tests_cant": "All tables, any length.", "anchors": ["mrcal-pywrap.c: optimize_validate_args"]}
{"id": "C11", "title": "Outlier rejection is monotone, magnitude-preserving and makes progress", "statement": "One outlier-rejection pass never turns an outlier into an inlier, never changes the magnitude of a weight, reports 'found new outliers' iff some observation's inlier status changed, rejects exactly the board corners whose x or y residual exceeds 4 standard deviations once any exceeds 5, and otherwise changes nothing; the reported number of board outliers is the number of corners not in use. Therefore the solve/reject loop of mrcal_optimize() terminates.", "quantifier": "all residual vectors, all weight patterns", "why_tests_cant": "Termination and counts need induction over all histories.", "anchors": ["mrcal.c: markOutliers, mrcal_optimize"]}
{"id": "C12", "title": "Camera index correspondence", "statement": "When mrcal_corresponding_icam_extrinsics() succeeds for a camera that was observed, the answer is the extrinsics index used by every observation of that camera; it fails if the cameras are not stationary (two extrinsics for one intrinsics or two intrinsics for one extrinsics).", "quantifier": "all observation tables and camera counts", "why_tests_cant": "All tables.", "anchors": ["mrcal.c: mrcal_corresponding_icam_extrinsics"]}
{"id": "C13", "title": "Lens-model name round trip", "statement": "For every lens model and integer configuration, parsing the printed name gives back the same model and configuration, the model's parameter count is as documented, and model-type-from-name agrees with full parsing; unknown names and names lacking their configuration are reported as such, and a configured model is either parsed or its configuration is reported as bad. A name is either written whole into the caller's buffer, or failure is reported. The CAHVORE linearity survives up to its printed 2-digit precision.", "quantifier": "all models, all uint16 configurations, all strings for the negative cases", "why_tests_cant": "Configurations are 2^64; strings are infinite.", "anchors": ["mrcal.c: mrcal_lensmodel_name, mrcal_lensmodel_from_name, mrcal_lensmodel_type_from_name, mrcal_lensmodel_num_params"]}
{"id": "C14", "title": "Sensor-link traversal is shortest-path", "statement": "mrcal_traverse_sensor_links() reports each sensor reachable from sensor 0 (other than 0) exactly once and no other; each is reported with a parent reported earlier (or 0); following parents to 0 gives a path of minimal cost, where cost minimizes sum of (65536 - shared observations); sensors come in nondecreasing cost.", "quantifier": "all sensor counts and connectivity matrices; all tie-breaking choices of the heap", "why_tests_cant": "All graphs and all heap tie-break schedules.", "anchors": ["traverse-sensor-links.c: mrcal_traverse_sensor_links; heap.cc"]}
{"id": "C15", "title": "Upper-triangular connectivity indexing is a bijection", "statement": "The packed upper-triangle index used by the sensor-link traversal maps unordered pairs {a,b}, a!=b < N one-to-one onto [0, N(N-1)/2), is symmetric, and agrees with the order in which the python wrapper fills the packed array.", "quantifier": "all N, all a,b", "why_tests_cant": "Unbounded N.", "anchors": ["traverse-sensor-links.c: pairwise_index; mrcal-pywrap.c: traverse_sensor_links"]}
{"id": "C16", "title": "Spline weights: partition of unity, positivity and local support", "statement": "The quadratic and cubic B-spline weights used by the splined lens model sum to 1 and are nonnegative over the segment; constant control points give a constant surface; sampled gradients equal the true derivative of the sampled surface.", "quantifier": "all sample positions and all control points", "why_tests_cant": "Continuum of inputs.", "anchors": ["mrcal.c: get_sample_coeffs__cubic, get_sample_coeffs__quadratic, sample_bspline_surface_cubic, sample_bspline_surface_quadratic, interp"]}
{"id": "C17", "title": "Splined surface is smooth across segment boundaries", "statement": "The quadratic splined correction surface is C1 and the cubic one is C2 across knot/segment boundaries: values and derivatives computed using adjacent control-point windows agree at the shared boundary.", "quantifier": "all control points, all boundaries", "why_tests_cant": "Continuum of inputs.", "anchors": ["mrcal.c: get_sample_coeffs__cubic, get_sample_coeffs__quadratic, _project_point_splined"]}
{"id": "C18", "title": "Spline control-point access is in bounds", "statement": "For any observation direction at all (even far outside of the spline domain) the splined projection reads only control points inside the intrinsics vector of length 4+2*Nx*Ny, for the configurations the model accepts.", "quantifier": "all directions, all Nx,Ny within the accepted range, both orders", "why_tests_cant": "Continuum of directions x all configurations.", "anchors": ["mrcal.c: _project_point_splined, _mrcal_precompute_lensmodel_data"]}
{"id": "C19", "title": "Zero spline is the stereographic model", "statement": "A splined-stereographic model with all control points zero projects every point as the stereographic model with the same core.", "quantifier": "all points, all configurations", "why_tests_cant": "Continuum.", "anchors": ["mrcal.c: _project_point_splined, mrcal_project_stereographic"]}
{"id": "C20", "title": "Pinhole projection: round trip, scale invariance and gradients", "statement": "unproject(project(p)) is parallel to p, project(unproject(q)) = q, projection is invariant to positive scaling of p, and the returned gradients are the true derivatives; every output element depends only on the corresponding input element.", "quantifier": "all points with z != 0, all nonzero focal lengths", "why_tests_cant": "Continuum.", "anchors": ["mrcal.c: mrcal_project_pinhole, mrcal_unproject_pinhole"]}
{"id": "C21", "title": "Stereographic projection: round trip, scale invariance and gradients", "statement": "project_stereographic(unproject_stereographic(q)) = q for each q; unproject(project(v)) is a positive multiple of v for each v not pointing exactly backwards; projection is invariant to positive scaling; gradients are true derivatives.", "quantifier": "all vectors with |v|+z > 0, all pixels, all cores with nonzero focal lengths", "why_tests_cant": "Continuum.", "anchors": ["mrcal.c: mrcal_project_stereographic, mrcal_unproject_stereographic"]}
{"id": "C22", "title": "Equirectangular (lonlat/latlon) projections: round trip and gradients", "statement": "project(unproject(q)) = q for q in the primary domain; unproject returns a unit vector; unproject(project(v)) = v/|v|; gradients are true derivatives where defined.", "quantifier": "all vectors off the poles, all cores with nonzero focal lengths", "why_tests_cant": "Continuum.", "anchors": ["mrcal.c: mrcal_project_lonlat, mrcal_unproject_lonlat, mrcal_project_latlon, mrcal_unproject_latlon"]}
{"id": "C23", "title": "OpenCV-model gradients are true derivatives", "statement": "The gradients of the OPENCV4/5/8/12 projection with respect to the point and each distortion coefficient are the derivatives of the projected pixel; zero coefficients reduce to pinhole; the models are nested (OPENCV4 c OPENCV5 c OPENCV8 c OPENCV12 with trailing zeros).", "quantifier": "all points with z != 0, all coefficient values (off poles of the rational denominator)", "why_tests_cant": "Continuum.", "anchors": ["opencv.c: _mrcal_project_internal_opencv"]}
{"id": "C24", "title": "Calibration-board geometry", "statement": "The projected board has corner (i,j) at (i*spacing, j*spacing, warp z); the warp displacement is zero at the four corners, symmetric about the board center, maximal at the center with the documented magnitude, and linear in the warp parameters with the gradients used.", "quantifier": "all board sizes >= 2, all warps, all spacings", "why_tests_cant": "Continuum and unbounded sizes.", "anchors": ["mrcal.c: project (board branch)"]}
{"id": "C25", "title": "Pose algebra: Rt compose/invert form a group action", "statement": "transform(compose(A,B),x) = transform(A,transform(B,x)); compose is associative with the identity; invert is a two-sided inverse for rigid transforms; each inverted0/inverted1 flag is equivalent to inverting that argument first; inverted transform undoes transform.", "quantifier": "all rotations (orthogonal matrices), translations and points", "why_tests_cant": "Continuum.", "anchors": ["poseutils.c: mrcal_compose_Rt_full, mrcal_invert_Rt_full, mrcal_transform_point_Rt_full, mrcal_rotate_point_R_full"]}
{"id": "C26", "title": "Rodrigues rotations are rotations", "statement": "R_from_r(r) is the rotation by |r| radians around r (the identity for |r| below the machine epsilon): orthogonal, with determinant 1, for every r, and R_from_r(-r) is its transpose. rotate_point_r(r,x,inverted) is R_from_r(r) x or its transpose times x for |r| >= 1e-5 and for r=0, preserving inner products; for |r| < 1e-5 it is off by at most 1e-10 |x|. The result doesn't depend on which gradients were requested. The gradients of both functions are the derivatives.", "quantifier": "all rotation vectors r, all points, all differentiable paths, each combination of the inverted flag and the requested gradients", "why_tests_cant": "Continuum.", "anchors": ["poseutils-opencv.c: mrcal_R_from_r_full; poseutils-uses-autodiff.cc: rotate_point_r_core"]}
{"id": "C27", "title": "Rodrigues inverse", "statement": "r_from_R(R_from_r(r)) = r for every rotation vector of magnitude at most pi with sin|r| > 1e-8 and for r=0, and R_from_r(r_from_R(R)) = R for every rotation matrix whose angle has sin > 1e-8, for the identity and for each 180 degree rotation. The magnitude of r_from_R(R) is at most pi. The reported gradient is the derivative along any path of rotation matrices.", "quantifier": "all r, all rotation matrices R, all paths, outside the open 1e-8 neighbourhoods of 0 and 180 degrees", "why_tests_cant": "Continuum.", "anchors": ["poseutils.c: mrcal_r_from_R_full; poseutils-opencv.c: mrcal_R_from_r_full"]}
{"id": "C28", "title": "Rotation-vector composition is rotation composition", "statement": "compose_r(r0,r1,inverted0,inverted1) describes the rotation R(r0) R(r1), each optionally inverted, and has magnitude at most pi, if both magnitudes are at least 2e-5 and the composed rotation is either the identity or turns by about 2e-8 or more. If r0=0 or r1=0 the result is the other vector. The inverted flags are equivalent to negating that argument. The result doesn't depend on which gradients were requested. The gradients are the derivatives with respect to both arguments (away from half-turns); compose_r_tinyr0_gradientr0() and compose_r_tinyr1_gradientr1() are the derivatives at r0=0, r1=0.", "quantifier": "all rotation vectors with these magnitudes, all differentiable paths, each combination of flags", "why_tests_cant": "Continuum.", "anchors": ["poseutils-uses-autodiff.cc: compose_r_core, mrcal_compose_r_full"]}
{"id": "C29", "title": "rt compose/invert agree with Rt compose/invert", "statement": "compose_rt, invert_rt and transform_point_rt agree with the Rt versions through Rt_from_rt, for each combination of inverted flags, and their gradients are the derivatives. Rotations must be 0 or have magnitude at least 1e-5 (2e-5 to be composed, with the composition being the identity or turning by about 2e-8 or more).", "quantifier": "all rt with these magnitudes, all points, all differentiable paths, each combination of flags", "why_tests_cant": "Continuum.", "anchors": ["poseutils.c: mrcal_compose_rt_full, mrcal_invert_rt_full, mrcal_Rt_from_rt_full; poseutils-uses-autodiff.cc: mrcal_transform_point_rt_full"]}
{"id": "C30", "title": "Forward-mode autodiff is sound", "statement": "Any expression evaluated by the val_withgrad_t arithmetic carries, in its gradient slots, exactly the partial derivatives of its value with respect to the seeded variables.", "quantifier": "all finite expressions over the supported operators, all seed points at which each operator is differentiable", "why_tests_cant": "Infinite set of expressions.", "anchors": ["_autodiff.hh: val_withgrad_t"]}
{"id": "C31", "title": "R_aligned_to_vector is a rotation sending v to z", "statement": "mrcal_R_aligned_to_vector(v) is an orthogonal matrix of determinant 1 and maps v/|v| to (0,0,1), for every nonzero v.", "quantifier": "all nonzero v", "why_tests_cant": "Continuum with a branch at |v_x| = 0.9.", "anchors": ["poseutils.c: mrcal_R_aligned_to_vector"]}
{"id": "C32", "title": "Geometric triangulation is the closest-approach midpoint", "statement": "When mrcal_triangulate_geometric() reports success the result is the midpoint of the segment joining the closest points of the two observation rays, and the two depths are positive; when the rays do intersect at a point in front of both, it returns that point.", "quantifier": "all ray pairs and camera offsets", "why_tests_cant": "Continuum.", "anchors": ["triangulation.cc: mrcal_triangulate_geometric"]}
{"id": "C33", "title": "Angular triangulation corrections produce intersecting rays", "statement": "In the Lee-Civera L1 and Linf methods the corrected observation vectors are coplanar with the baseline (they intersect); L1 moves only one of the rays; observations that already intersect are not moved.", "quantifier": "all ray pairs, camera offsets", "why_tests_cant": "Continuum.", "anchors": ["triangulation.cc: mrcal_triangulate_leecivera_l1, mrcal_triangulate_leecivera_linf"]}
{"id": "C34", "title": "Perfect observations triangulate exactly", "statement": "If both observation rays pass through a point p in front of both cameras (non-parallel rays), each triangulation method returns p.", "quantifier": "all points, all camera offsets, all positive scalings of the observation vectors", "why_tests_cant": "Continuum.", "anchors": ["triangulation.cc: mrcal_triangulate_geometric, mrcal_triangulate_leecivera_mid2, mrcal_triangulate_leecivera_wmid2, mrcal_triangulate_leecivera_l1, mrcal_triangulate_leecivera_linf, mrcal_triangulate_lindstrom, triangulate_assume_intersect"]}
{"id": "C35", "title": "Divergence penalty blends continuously", "statement": "The scalar blending functions used by the triangulated-point cost (relu and sigmoid) are continuous, bounded/monotone and their gradients are the true derivatives on each piece; the triangulated error is non-negative.", "quantifier": "all reals", "why_tests_cant": "Continuum.", "anchors": ["triangulation.cc: relu, sigmoid, _mrcal_triangulated_error"]}
{"id": "C36", "title": "Stereo range inverts disparity", "statement": "For an object seen at azimuths az0, az1 in a rectified pair, mrcal_stereo_range reports the exact distance from the left camera for both LATLON and PINHOLE rectification; disparity that is <= 0 or out of the requested bounds reports range 0.", "quantifier": "all points in front of the pair, all rectified intrinsics, all disparities", "why_tests_cant": "Continuum.", "anchors": ["stereo.c: _stereo_range_one, mrcal_stereo_range_sparse, mrcal_stereo_range_dense"]}
{"id": "C37", "title": "Rectified geometry is a rotation aligned with the baseline", "statement": "The rotation constructed by the stereo rectification is orthonormal, has x axis along the baseline, and both rectified cameras share it; so a world point projects to the same row in both rectified images.", "quantifier": "all camera pairs with nonzero, non-degenerate baseline; all points", "why_tests_cant": "Continuum.", "anchors": ["stereo.c: mrcal_rectified_system2"]}
{"id": "C38", "title": "Rectification map recurrences equal the direct formula", "statement": "The incrementally-updated sin/cos used to fill the LATLON rectification maps equal sin/cos of the angle of that pixel at each row/column.", "quantifier": "all image sizes and angular resolutions", "why_tests_cant": "Unbounded iteration.", "anchors": ["stereo.c: mrcal_rectification_maps"]}
{"id": "C39", "title": "The .cameramodel reader accepts exactly the valid files", "statement": "mrcal_read_cameramodel_string() returns a model exactly if the text is a dictionary in the documented syntax (comments, trailing commas, unknown keys with numbers, strings or nested lists of numbers are allowed), with all the required keys, a known lensmodel before the intrinsics, as many intrinsics as the lens needs, 6 extrinsics, a nonzero imager width; no key is repeated, except extrinsics (or their legacy alias) that agree. Otherwise it returns NULL. The model returned holds the values in the text.", "quantifier": "all token streams", "why_tests_cant": "All inputs.", "anchors": ["cameramodel-parser.re: mrcal_read_cameramodel_string"]}
{"id": "C40", "title": "Pixels, crops and channel order of images", "statement": "mrcal_image_TYPE_at(x,y) is the address y*stride + x*sizeof(pixel) after the data. A pixel (x,y) of a crop at (x0,y0) is the pixel (x0+x,y0+y) of the original. Exchanging the bgr and rgb orders touches each pixel exactly once, nothing between or outside the pixels, and doing it twice restores the memory.", "quantifier": "all images with rows that don't overlap, all coordinates", "why_tests_cant": "All sizes, strides, alignments and crops; a test samples a few.", "anchors": ["image.h: mrcal_image_TYPE_at, mrcal_image_TYPE_crop", "image.c: bgr_tofrom_rgb"]}
{"id": "C41", "title": "Color maps follow the documented formulas", "statement": "mrcal_apply_color_map_TYPE(): each pixel gets the documented color for its relative position between the bounds, limited to [0,1], and rounded to the nearest of 256 levels; automatic bounds are the true extrema of the image; given bounds are used exactly. Pixels outside the image aren't written. Images of different sizes and formulas that don't exist are rejected.", "quantifier": "all images, pixel types, bounds and formulas", "why_tests_cant": "All values, including those where the arithmetic in the pixel type overflows.", "anchors": ["stereo.c: mrcal_apply_color_map_uint8, DEFINE_mrcal_apply_color_map"]}
{"id": "C42", "title": "Legacy argument names are honoured", "statement": "An optimization input given under its legacy name (extrinsics_rt_fromref, frames_rt_toref) has the same effect as the same value given under the new name, and giving both non-empty is an error.", "quantifier": "all combinations of absent/None/empty/non-empty values of old and new name", "why_tests_cant": "Interaction of two preprocessing steps over all combinations.", "anchors": ["mrcal-pywrap.c: _handle_renamed, _optimize, state_index_generic"]}
{"id": "C43", "title": "Default problem selections", "statement": "do_optimize_* flags that the user did not give default to 'optimize if there is anything to optimize', explicit flags are kept, and forwards-compatibility filtering drops exactly unknown keys with null values and errors on unknown non-null ones.", "quantifier": "all flag settings, key sets", "why_tests_cant": "All combinations of keyword dictionaries.", "anchors": ["mrcal-pywrap.c: CONSTRUCT_PROBLEM_SELECTIONS, optimization_inputs_kwargs_delete_unknown"]}
{"id": "C44", "title": "Explicit problem sizes are honoured", "statement": "The state/measurement query functions accept the problem sizes either implied by the arrays in the optimization inputs or as explicit arguments; as documented, when both are given the explicit argument takes precedence.", "quantifier": "all combinations of arrays and explicit sizes", "why_tests_cant": "Interaction of keyword filtering with two ways of giving each size.", "anchors": ["mrcal-pywrap.c: state_index_generic, optimization_inputs_kwargs_delete_unknown; state_index_intrinsics.docstring"]}
{"id": "C45", "title": "The measurement-index functions name the residuals that the optimizer writes", "statement": "After one evaluation of the cost function, the residual of corner (row,col) of board observation i is at measurement_index_boards(i)+2*(row*width+col)+{0,1}, that of point observation i at measurement_index_points(i)+{0,1}, that of the triangulated pair reported by decode_observation_indices_points_triangulated(m) is at measurement_index_points_triangulated(0)+m, and the regularization residuals are everything from measurement_index_regularization() on. Each board/point residual is (projected pixel - observed pixel)*weight, or 0 for an outlier.", "quantifier": "all problems", "why_tests_cant": "Relates independent pieces of code (index functions, decoder, the callback's loops) over all problem shapes.", "anchors": ["mrcal.c: optimizer_callback, mrcal_measurement_index_*, mrcal_decode_observation_indices_points_triangulated"]}
{"id": "C46", "title": "Outlier counts are consistent", "statement": "The outlier counts that optimize() reports equal the number of board corners and of triangulated pairs that the solve ignores, whether or not outlier rejection was asked for, for any input weights (including 0) and any pattern of divergent triangulated pairs.", "quantifier": "all weight patterns, all pair structures and divergence patterns", "why_tests_cant": "Which pairs get counted depends on the order in which divergences are discovered; all patterns matter.", "anchors": ["mrcal.c: markOutliers, mrcal_optimize"]}
{"id": "C47", "title": "Verbose reporting doesn't change the outcome", "statement": "Asking optimize() for verbose output only adds output: for every problem selection the call reads only existing measurements and completes like the non-verbose call.", "quantifier": "all problem selections, lens models, camera counts", "why_tests_cant": "2^8 selections x all models; the tests don't combine verbose with the unusual regularization selections.", "anchors": ["mrcal.c: mrcal_optimize"]}
{"id": "C48", "title": "Malformed lens-model configurations are rejected", "statement": "A configuration value in a lens-model name is accepted only if it's a plain decimal number that fits the configuration's 16-bit field; then the model has exactly the configuration that was written. Anything else is reported as a bad configuration.", "quantifier": "all strings", "why_tests_cant": "The set of strings is infinite; the tests try a handful of malformed ones.", "anchors": ["mrcal.c: LENSMODEL_SPLINED_STEREOGRAPHIC__scan_model_config, mrcal_lensmodel_from_name"]}
{"id": "C49", "title": "The splined model covers its declared field of view", "statement": "Every direction inside the horizontal field of view that a splined model declares is interpolated between control points, never extrapolated, and the edges of this field of view are exactly the edges of the usable part of the grid. The knots the library reports are where the grid coordinates are integers.", "quantifier": "all accepted configurations, all directions", "why_tests_cant": "Quantifies over real directions and all grid sizes.", "anchors": ["mrcal.c: _mrcal_precompute_lensmodel_data_MRCAL_LENSMODEL_SPLINED_STEREOGRAPHIC, mrcal_knots_for_splined_models, _project_point_splined"]}
{"id": "C50", "title": "Gradients of the splined projection", "statement": "project(get_gradients=True) with a splined model returns the true derivative of the pixel with respect to the point and with respect to each one of the parameters: the core and each control point, those outside of the active patch included.", "quantifier": "all accepted configurations, points and parameters", "why_tests_cant": "Real-analysis statement about all points and parameter vectors; finite differences sample a few.", "anchors": ["mrcal.c: _project_point_splined, _mrcal_project_internal"]}
{"id": "C51", "title": "CAHVOR projection: gradients, central, reduces to pinhole", "statement": "The gradients reported by the CAHVOR projection with respect to the point, the focal lengths, the center pixel and each of the 5 distortion parameters are the true derivatives of the pixel; with no radial distortion the projection is the pinhole one whatever the optical axis is; the projected pixel depends only on the direction to the point.", "quantifier": "all intrinsics, all points not orthogonal to the optical axis whose distorted point isn't at z=0", "why_tests_cant": "Continuum; a wrong product-rule term is invisible at points where that factor is small.", "anchors": ["mrcal.c: project_cahvor"]}
{"id": "C52", "title": "Observation of the board and of points: pixel, order and gradients through the poses", "statement": "In a solve, the predicted pixel of a board corner (or discrete point) is the lens applied to that corner (point) moved by the frame pose and then by the camera pose (not at all, for a camera at the reference); the corner (x,y) is at index y*width+x. When the camera pose, the frame pose or point, the board warp and the intrinsics all move at once, the pixel moves at exactly the rate given by the reported gradients. The gradients of a camera at the reference with respect to its pose are 0.", "quantifier": "all lenses with correct gradients of their own, all poses outside of the neighbourhoods of the singular rotations, all boards, all warps", "why_tests_cant": "The gradients go through composed rotations and chain rules; finite differences sample a few poses and don't move all the variables at once.", "anchors": ["mrcal.c: project, propagate_extrinsics, propagate_extrinsics_splined", "poseutils.c: mrcal_compose_rt_full, mrcal_R_from_r_full"]}
{"id": "C53", "title": "CAHVORE projection: gradients through the iterative solver", "statement": "CAHVORE has no closed form: an angle is found by Newton's method, and the gradients come from running the iteration on values that carry derivatives. The reported gradients with respect to the point, the core and each of the 8 distortion parameters are the true derivatives of the pixel that the iteration returns, and asking or not asking for a gradient affects neither success, nor the pixel, nor the other gradient. A reported angle solves the CAHVORE equation to the stated tolerance; when it solves it exactly, the gradient is that of the exact solution.", "quantifier": "all intrinsics, linearities and points at which the iteration stays away from a zero derivative and from its decision thresholds", "why_tests_cant": "The derivative of the output of an iteration; finite differences sample a few points and cannot tell convergence error from a missing term.", "anchors": ["cahvore.cc: _project_cahvore_internals, project_cahvore_internals", "mrcal.c: project_cahvore"]}
{"id": "C54", "title": "CAHVORE with E=0 is central and reduces to CAHVOR and pinhole", "statement": "With E=0 the CAHVORE projection depends only on the direction to the point and succeeds exactly when the angle off the axis times |linearity| is at most 90 degrees; with linearity 1 as well it is exactly CAHVOR; with R=0 too it is the pinhole projection whatever the optical axis is.", "quantifier": "all intrinsics, all points on the optical axis or more than 1e-8 radians from it", "why_tests_cant": "Continuum of points and parameters.", "anchors": ["cahvore.cc: _project_cahvore_internals", "mrcal.c: project_cahvor, project_cahvore"]}
{"id": "C55", "title": "CAHVORE projection failure reports a zero pixel and zero gradients", "statement": "When the CAHVORE projection can't be computed, the optimizer sees the pixel (0,0) and all the gradients set to 0, whatever was in the caller's buffers.", "quantifier": "all buffers", "why_tests_cant": "The bug class is stale memory: tests that start with zeroed buffers can't see it.", "anchors": ["mrcal.c: _project_point"]}
{"id": "C56", "title": "Projecting an array of points: pixels and all gradients, every lens model", "statement": "project() of N points gives N pixels, each the projection of its own point; the pixels are the same whether or not gradients are requested (the fast path used without gradients agrees with the general one). With gradients requested, each entry of the (N,2,3) array is the derivative of its pixel with respect to its point, and each entry of the dense (N,2,Nintrinsics) array is the derivative of its pixel with respect to that lens parameter, for every lens model. Nothing past the end of the arrays is written.", "quantifier": "all lens models and valid configurations, all N, all points at which the model is differentiable, all parameters", "why_tests_cant": "The layout of the dense gradient array and the agreement of the two paths are statements about all models, all N and all columns.", "anchors": ["mrcal.c: mrcal_project, _mrcal_project_internal, _project_point", "opencv.c: _mrcal_project_internal_opencv"]}
{"id": "C57", "title": "Projecting an array of points with only the point gradient requested", "statement": "The C API mrcal_project() accepts dq_dp without dq_dintrinsics; the reported (N,2,3) array is then the same as when both are requested.", "quantifier": "all lens models, all N, all points", "why_tests_cant": "Tests go through the python wrapper, which calls this with N=1.", "anchors": ["mrcal.c: mrcal_project, _mrcal_project_internal"]}
{"id": "C58", "title": "Unprojection is checked", "statement": "unproject() of N pixels gives N vectors: each one either projects back to its pixel (exactly for the models with a direct inverse, within the solver tolerance otherwise) or is marked as invalid, and never points behind a camera that can't see there. The residual gradients given to the solver are right, and the solver starts from the pinhole solution. Noncentral models are refused.", "quantifier": "all lens models, all N, all pixels, whatever the nonlinear solver does", "why_tests_cant": "The solver is arbitrary here: tests only see the runs where it converges.", "anchors": ["mrcal.c: mrcal_unproject, _mrcal_unproject_internal, _unproject_callback"]}
{"id": "C59", "title": "Unprojection of CAHVORE with E=0", "statement": "unproject() of a CAHVORE model with E=0 gives a vector that projects back to the given pixel, or marks it invalid.", "quantifier": "all linearities, all pixels", "why_tests_cant": "Affects only directions more than 90 degrees from the camera axis, with linearity close to 0.", "anchors": ["mrcal.c: _mrcal_unproject_internal"]}
{"id": "C60", "title": "Triangulation failure is distinguishable from a triangulated point", "statement": "Each triangulation method returns the point (0,0,0) exactly when it failed: no successful triangulation returns (0,0,0). The convergence check used to select triangulated features says 'convergent' exactly when the mid2 method succeeds; perfect observations of a point in front of both cameras always converge, and a point behind both cameras never does.", "quantifier": "all observation vectors and camera offsets", "why_tests_cant": "The sentinel is an ordinary value of the return type: a test can only show that particular successful calls return something else.", "anchors": ["triangulation.cc: mrcal_triangulate_geometric, mrcal_triangulate_leecivera_l1, mrcal_triangulate_leecivera_linf, mrcal_triangulate_leecivera_mid2, mrcal_triangulate_leecivera_wmid2, mrcal_triangulate_lindstrom, _mrcal_triangulate_leecivera_mid2_is_convergent"]}
{"id": "C61", "title": "The angular triangulation methods are optimal", "statement": "The L1 method applies the smallest total angular correction of the two rays of all the corrections that make them intersect; the Linf method applies the smallest possible maximum angular correction, and then corrects both rays by the same angle.", "quantifier": "all non-degenerate ray pairs; all candidate corrected ray pairs", "why_tests_cant": "Optimality is a statement about all possible corrections.", "anchors": ["triangulation.cc: mrcal_triangulate_leecivera_l1, mrcal_triangulate_leecivera_linf"]}
{"id": "C62", "title": "Midpoint triangulation follows the documented formula for any vector lengths", "statement": "The mid2 and wmid2 methods return the documented (weighted) midpoint of the points at ranges |v1 x t|/|v0 x v1| and |v0 x t|/|v0 x v1| if and only if these are in front of both cameras; the lengths of the observation vectors don't matter, as documented ('not-necessarily normalized').", "quantifier": "all observation vectors, camera offsets, and positive scalings of the vectors", "why_tests_cant": "The scale invariance is a statement about a continuum of pairs of calls.", "anchors": ["triangulation.cc: mrcal_triangulate_leecivera_mid2, mrcal_triangulate_leecivera_wmid2, chirality"]}
{"id": "C63", "title": "Triangulation gradients are the true derivatives", "statement": "Whenever a triangulation method reports a point, the gradients it reports with respect to both observation vectors and the camera offset (all 12 elements of Rt01 in the Lindstrom method) are the derivatives of the returned point along any differentiable path of the inputs.", "quantifier": "all inputs where the method succeeds (for the ray-correcting methods: not exactly at a switch between their branches); all paths", "why_tests_cant": "Finite-difference tests sample a few inputs and can't see a wrong gradient in a rarely-taken branch.", "anchors": ["triangulation.cc: all mrcal_triangulate_* routines; _autodiff.hh"]}
{"id": "C64", "title": "The Lindstrom triangulation implements the published niter2 algorithm", "statement": "After the correction step of mrcal_triangulate_lindstrom() the corrected observations satisfy the epipolar constraint better, following the published listing (the factor of the second step is l*d/b').", "quantifier": "all observation pairs", "why_tests_cant": "The deviation only shows for noisy observations, where there is no reference value to compare against.", "anchors": ["triangulation.cc: mrcal_triangulate_lindstrom lines 365-388"]}
{"id": "C65", "title": "The rectified view stays away from the baseline", "statement": "A rectified system that mrcal.rectified_system() reports never has a field of view that reaches within the margin (to 0.001deg) of the direction of the baseline. A given azimuth center is used exactly or rejected; an automatic center is the mean view direction of the two cameras if that fits, and the request fails only if the field of view can't fit at all.", "quantifier": "all camera pairs, fields of view, centers", "why_tests_cant": "A continuum of geometries, with the interesting ones on a boundary.", "anchors": ["stereo.c: mrcal_rectified_system2", "mrcal/stereo.py: rectified_system"]}
{"id": "C66", "title": "The rectified images cover exactly the requested field of view", "statement": "The LATLON image has an integer size and spans exactly the requested azimuth and elevation field of view, centered on the requested direction. The PINHOLE image does that to within half a pixel, and has the requested resolution at its center. Requests that can't be satisfied are rejected.", "quantifier": "all requests, resolutions, centers", "why_tests_cant": "The PINHOLE principal point comes from picking one of up to 4 roots of a quartic: which root is right depends on the request, and a test samples a few of them.", "anchors": ["stereo.c: mrcal_rectified_system2, compute_pinhole_cxy, mrcal_rectified_resolution"]}
{"id": "C67", "title": "The automatic rectified resolution matches that of the camera", "statement": "If the rectified resolution is given as a negative multiplier, the resolution used is that multiple of the rate (pixels per degree of rectified azimuth or elevation) at which the pixel seen by the left camera moves at the center of the rectified view.", "quantifier": "all cameras with correct projection gradients; all rectification models, centers, rotations", "why_tests_cant": "It is a statement about derivatives.", "anchors": ["stereo.c: mrcal_rectified_resolution"]}
{"id": "C68", "title": "The whole stereo pipeline returns the true range", "statement": "For a world point, rectify the pair, project the point with both rectified cameras, and pass the difference of the column coordinates to mrcal.stereo_range(): the result is the distance from the left camera; mrcal.stereo_unproject() gives the point itself.", "quantifier": "all camera pairs, world points", "why_tests_cant": "Each step is a continuum, and errors in two steps can cancel at symmetric test points.", "anchors": ["stereo.c: mrcal_rectified_system2, _stereo_range_one", "mrcal/stereo.py: rectified_system, stereo_range, stereo_unproject"]}
{"id": "C69", "title": "Reading a model into a preallocated buffer reports the needed size", "statement": "mrcal_read_cameramodel_string_into() is successful exactly if mrcal_read_cameramodel_string() is and the model has no more intrinsics than the buffer has room for; both then return the same model. A valid model that doesn't fit fails and reports exactly the number of its intrinsics. Any reported size exceeds the room given, and retrying with this much room never reports a size again.", "quantifier": "all texts, buffer sizes", "why_tests_cant": "The interaction of the size check with all the ways of failing later or earlier in the text.", "anchors": ["cameramodel-parser.re: mrcal_read_cameramodel_string_into, read_cameramodel_string_generic, read_keyvalue_intrinsics"]}
{"id": "C70", "title": "A model written by the C library can be read back", "statement": "Any complete finite model can be written with mrcal_write_cameramodel_file() and then read with mrcal_read_cameramodel_file(): the lens and imager size come back exactly, each intrinsic and extrinsic value is the closest one with 6 digits after the decimal point (2 digits for the linearity of CAHVORE). If all the values are that short, the model comes back exactly; so writing and reading again loses nothing more.", "quantifier": "all models of all lens types with imager sizes below 2^31", "why_tests_cant": "All models, including those at the limits of the numeric range.", "anchors": ["mrcal.c: mrcal_write_cameramodel_file", "cameramodel-parser.re: mrcal_read_cameramodel_string"]}
{"id": "C71", "title": "Saved images have the pixels that were given", "statement": "mrcal_image_TYPE_save(): the extension decides the format, in upper or lower case: .png takes everything, .jpg everything but 16-bit images, .pgm the gray images, .ppm the color images. Everything else and empty images are rejected. .pgm and .ppm files are valid files of this format with the right dimensions, and with the given pixels: in rows, red green blue. The png and jpg libraries get the right data: red green blue.", "quantifier": "all file names, images, strides, memory contents", "why_tests_cant": "All names and all images, including those with gaps between the rows.", "anchors": ["image.c: generic_save, generic_save_pnm, generic_save_png, generic_save_jpg"]}
{"id": "C72", "title": "Images are loaded as documented; saving and loading is lossless", "statement": "mrcal_image_TYPE_load(): 8-bit gray images load from 8-bit gray and color files (with or without alpha) and 16-bit gray files; 16-bit images only from 16-bit gray files, without conversion; color images from all 8-bit files. mrcal_image_anytype_load() takes the type of the file. The loaded image has the size and the pixels that the decoder reports, color in the bgr order. Saving any image to a .png file and loading it reproduces all the pixels.", "quantifier": "all images and files for which the decoder does what it should", "why_tests_cant": "All combinations of types, and all image sizes and contents.", "anchors": ["image.c: generic_load, generic_save", "image.h"]}
{"id": "C73", "title": "16-bit images loaded as 8-bit images are stretched to the full range", "statement": "Loading a 16-bit image as an 8-bit one maps its smallest value to 0, its largest to 255, and the others linearly with rounding to the nearest. The order of values is kept.", "quantifier": "all images", "why_tests_cant": "All images: what matters is the order in which the values appear.", "anchors": ["image.c: stretch_equalization_uint8_from_uint16"]}
{"id": "C74", "title": "The optimizer callback reports the documented residuals and their true Jacobian", "statement": "At any packed state, for any problem with valid indices, mrcal_optimizer_callback() reports, in order: for each board corner and each point the weighted difference between its projection (by the lens model, through the poses of the camera and the board, and the deflection of the board) and its observation (0 for outliers); for each pair of triangulated observations of the same point the triangulation error; and the regularization terms. Each element (i,j) of the sparse Jacobian is the partial derivative of measurement i with respect to element j of the packed state, and the gradient of the cost |x|^2 is 2 J'x. All the chained gradients, the unpacking scales, the selections of what's optimized, the fixed points and the cameras at the reference are right.", "quantifier": "all problems (any number of cameras, frames, points, observations, any lens model, any optimization selections), all packed states at which the measurements are differentiable, all smooth paths through them", "why_tests_cant": "Test suites compare a few Jacobians to finite differences at a few states of one or two lens models; each combination of lens, selections and camera arrangement has separate code paths", "anchors": ["mrcal.c:4480-5980 (optimizer_callback)", "mrcal.c:2090-3100 (project)", "mrcal.c:3508-3645 (unpack)", "triangulation.cc:660-900"]}
{"id": "C75", "title": "Aligning vectors finds the best rotation", "statement": "align_procrustes_vectors_R01(v0, v1, weights) returns a rotation (never a mirror) that minimizes the documented cost -sum(w v0.R01 v1) over all rotations; or, if the optimum isn't unique, it reports an error: an array of all 0. Vectors along one line are always reported as an error. Contiguous arrays (C code) and others (Python code) produce the same result.", "quantifier": "all sets of vectors, all weights (of any sign), all singular value decompositions that LAPACK or numpy could produce", "why_tests_cant": "Tests align a few generated sets of vectors that are almost perfectly aligned. That no better rotation exists, in particular if the best orthogonal matrix is a mirror, is a statement about all rotations; and the decomposition isn't unique, so that which one LAPACK picks can't be controlled", "anchors": ["poseutils.c:1439-1607", "poseutils-genpywrap.py:1160-1225", "mrcal/utils.py:77-118", "mrcal/utils.py:193-265"]}
{"id": "C76", "title": "Aligning points finds the best rigid transformation", "statement": "align_procrustes_points_Rt01(p0, p1, weights) returns a rotation and a translation that minimize the documented cost sum(norm2(w (p0 - transform(p1)))) over all rigid transformations. If all the points of one of the sets are along a line, then an error is reported: an array of all 0. Contiguous arrays (C code) and others (Python code) produce the same result.", "quantifier": "all sets of points, all weights, all singular value decompositions that LAPACK or numpy could produce", "why_tests_cant": "Tests align a few generated sets of points, with weights that differ for points that fit perfectly; optimality over all transformations isn't tested", "anchors": ["poseutils.c:1439-1645", "mrcal/utils.py:26-74", "mrcal/utils.py:121-191"]}
{"id": "C77", "title": "The cross-reprojection gradient is the optimal compensation", "statement": "drt_cross_reprojection__dbpacked(icam_intrinsics, **optimization_inputs) returns a (6,Nstate) array K such that for each perturbation db of the state, K db is the small rigid transformation that, to first order, minimizes the change of the reprojected observations: the unique minimum of the sum of squares over the selected measurements (all of them, or those of one camera). Columns of state variables that the reprojection doesn't depend on are 0. The call succeeds if and only if the problem is supported and its minimum is unique.", "quantifier": "all optimization problems with boards and points, all selections of optimized variables, all icam_intrinsics, all perturbations", "why_tests_cant": "Tests evaluate the final uncertainties of a few simulated problems by sampling, with loose tolerances; the accumulation over blocks of measurements depends on which variables are optimized and in which order the observations come, and there are many combinations", "anchors": ["uncertainty.c:1-1541", "mrcal-pywrap.c:2015-2110", "mrcal/model_analysis.py:1370-1425"]}
{"id": "C78", "title": "Propagated calibration uncertainty is the covariance of the re-optimized result", "statement": "If the observations in a solved calibration problem get independent noise of the given standard deviation, and the problem is re-optimized (to first order), then the covariance of any quantity F with a given gradient dF/db is exactly the matrix that is reported for it. Regularization terms have no noise, but do affect the optimum. The report is available if and only if the optimum is unique (and there are states, and there is no triangulated observation, and noise is given or can be estimated). The mean of the change is 0.", "quantifier": "all optimization problems without triangulated points, all selections of optimized variables, with and without regularization, all gradients dF/db, all distributions of noise with that covariance", "why_tests_cant": "Tests compare against Monte-Carlo sampling of a few synthetic problems with loose tolerances. The computation has two code paths (with and without regularization) and two kernels (N=2 or not); it exploits symmetry, the sparsity of J, and the factors of the Cholesky decomposition", "anchors": ["mrcal/model_analysis.py:398-870", "mrcal-genpywrap.py:477-638", "mrcal-pywrap.c:110-580", "mrcal/utils.py:1286-1530"]}
{"id": "C79", "title": "Worst-direction and RMS standard deviations are what they say", "statement": "what='worstdirection-stdev' reports the largest standard deviation of F along any direction, and it's attained in some direction. what='rms-stdev' reports the root mean square of the standard deviations along any set of orthogonal axes. worst_direction_stdev(cov) does the former for any covariance matrix.", "quantifier": "all covariance matrices of any size; all problems and gradients", "why_tests_cant": "Tests check a few matrices, and compare to sampled results with tolerances", "anchors": ["mrcal/model_analysis.py:398-484", "mrcal/model_analysis.py:840-870"]}
{"id": "C80", "title": "The noise estimated from the residuals is unbiased, up to regularization", "statement": "If observed_pixel_uncertainty isn't given, it's estimated from the residuals of the inlier observations: outliers and regularization aren't counted. The estimate is available if and only if there are more inlier measurements than state variables. If the model fits the noise-free observations, then the mean of the squared estimate is the true variance without regularization; with regularization it isn't smaller than the variance, and is larger by at most a factor of N/(N-Nstate).", "quantifier": "all optimization problems with boards and points, all patterns of outliers, all distributions of noise with that covariance", "why_tests_cant": "Statistical claim about an average over all noise; tests look at one sample with a loose tolerance. The effect of the regularization on the estimate can't be seen in one sample", "anchors": ["mrcal/model_analysis.py:487-556", "mrcal/utils.py:1286-1530", "doc/formulation.org"]}
{"id": "C81", "title": "projection_uncertainty() reports the covariance of the pixel that results from redoing the calibration", "statement": "The gradient that projection_uncertainty() propagates is the derivative of the documented experiment, for each of its methods: move the calibration in any direction, find the small transformation that explains the observations best (cross-reprojection of the camera or of the reference coordinates), or follow the point with each frame (mean-pcam), and reproject. So if the calibration is redone with new pixel noise of the given standard deviation, then to first order the reported covariance is the covariance of the pixel, the worst-direction standard deviation is the largest one over all directions, and the RMS is the mean over x and y. At infinity the distance to the point has no effect.", "quantifier": "all calibration problems (any number of boards, points, cameras, moving or stationary), lens models, methods, points, all distributions of noise", "why_tests_cant": "Tests compare with a Monte-Carlo simulation of one calibration, with loose tolerances: an error of a few per cent, or in a case that wasn't simulated, isn't noticed", "anchors": ["mrcal/model_analysis.py:873-1188", "mrcal/model_analysis.py:1192-1517", "uncertainty.c", "doc/uncertainty.org"]}
{"id": "C82", "title": "projection_uncertainty() answers for every calibration that has a unique solution", "statement": "An answer is produced exactly if the requested quantity and the method are known, the calibration has a unique solution, the method has what it needs (documented restrictions), and the noise level is known or can be estimated. Quantities that are fixed in the calibration (intrinsics, poses) don't prevent it.", "quantifier": "all calibration problems, methods, points", "why_tests_cant": "Tests ask for the uncertainties of a few complete calibrations; what's fixed and what's optimized has many combinations", "anchors": ["mrcal/model_analysis.py:1318-1517", "uncertainty.c:900-1000"]}
{"id": "C83", "title": "Pose accessors of a camera model agree", "statement": "A pose given to a mrcal.cameramodel with any of rt_cam_ref(), rt_ref_cam(), Rt_cam_ref(), Rt_ref_cam() is returned by all four of them: each of the returned values maps each point between the reference and the camera coordinates in the same way as the value that was set. Nothing else in the model changes. A model constructed without a pose is at the reference.", "quantifier": "for all models, all poses (rotations that aren't in the range where approximations are used: nonzero and below 1e-5 rad, or a matrix this close to a half turn), all points, all pairs of a setter and a getter", "why_tests_cant": "Tests compare a few poses to a tolerance, mostly through one accessor; 16 combinations with a continuum of poses include half turns where the conversion from matrices is special", "anchors": ["mrcal/cameramodel.py:1613-1792", "poseutils.c", "poseutils-uses-autodiff.cc"]}
{"id": "C84", "title": "Optimization inputs and valid-intrinsics region belong to the intrinsics", "statement": "After any sequence of successful modifying calls the optimization inputs returned by a model are the ones given in the same call that set the current intrinsics, for the camera index given there, or there are none. The valid-intrinsics region was set since that call, or there is none, and is a closed polygon. A model constructed from optimization inputs has the intrinsics, the imager size and the pose of its own cameras in the inputs that it returns.", "quantifier": "for all sequences of calls of any length, all arguments", "why_tests_cant": "The state depends on the history: tests try a handful of sequences. Mixed-up optimization inputs produce wrong uncertainties without any error", "anchors": ["mrcal/cameramodel.py:62-147", "mrcal/cameramodel.py:862-892", "mrcal/cameramodel.py:1232-1290", "mrcal/cameramodel.py:1478-1613", "mrcal/cameramodel.py:1795-1990", "mrcal/utils.py:941-1001"]}
{"id": "C85", "title": "Optimization inputs survive being stored in a camera model", "statement": "Each argument in the optimization inputs given to a model is returned by optimization_inputs() with the same value, type and shape. None stays None. Exceptions: verbose is False, cameras=None is an array without cameras, arguments that older versions don't know are omitted if they have a default value, and the names used by older versions contain an error message. Storing what was returned changes nothing more.", "quantifier": "for all dicts of arguments with any values that numpy can store without pickling", "why_tests_cant": "The values are renamed, normalized and defaulted in both directions, with interactions between keys: tests round-trip one or two calibrations", "anchors": ["mrcal/cameramodel.py:160-387", "mrcal/cameramodel.py:1895-1935"]}
{"id": "C86", "title": "Camera models survive being written and read in Python", "statement": "A model written with mrcal.cameramodel.write() in the native format can be read, with any note. The lens model, the imager size, the optimization inputs and their camera indices come back exactly; the intrinsics, the pose and the valid-intrinsics region are rounded to 10 significant digits, and come back exactly if they have no more digits than this. Writing what was read produces the same file, so there's no drift when a model is read and written many times.", "quantifier": "for all valid models with any lens, any numbers below the overflow threshold, any closed region, with or without optimization inputs; all notes", "why_tests_cant": "The writer formats numbers in three notations, the reader is a general parser of Python literals: tests write and read a handful of models", "anchors": ["mrcal/cameramodel.py:503-558", "mrcal/cameramodel.py:561-684", "mrcal/cameramodel.py:1316-1475"]}
{"id": "C87", "title": "C and Python agree on camera model files", "statement": "Each file written by mrcal.cameramodel.write() is accepted by mrcal_read_cameramodel_string(), and each file written by mrcal_write_cameramodel_file() is accepted by mrcal.cameramodel(). Both readers see the same lens model, intrinsics, pose and imager size in any such file.", "quantifier": "for all valid models in either language, with any note, region (with coordinates up to 1e9) and optimization inputs", "why_tests_cant": "The two readers are independent: a hand-written lexer and ast.literal_eval(). Tests compare a few files; the notation of the numbers depends on their values", "anchors": ["mrcal/cameramodel.py:503-684", "cameramodel-parser.re:1-781", "mrcal.c:6626-6678"]}
{"id": "C88", "title": ".cahvor files mean what the CAHVOR equations say, and models survive them", "statement": "A .cahvor file that is written with PINHOLE or CAHVOR obeys the published equations: the pixel of a point is H.d/A.d, V.d/A.d, for the ray d from C to the point, distorted around O by R; and a model that is read from such a file projects according to the equations of the file. A model that is written and then read is the same camera: the same pose, imager and region, and the same pixel for every point; this includes OPENCV and CAHVORE. Exactly the lens models that the format can describe are written, and files with missing or contradictory fields are refused.", "quantifier": "for all poses, all positive focal lengths, all distortions, all axes, all points; all contents of the file", "why_tests_cant": "The vectors C,A,H,V,O mix the pose and the intrinsics, and the axis is converted to two angles and back: an error in a sign or the use of the transposed rotation is invisible at the reference pose that tests favour", "anchors": ["mrcal/cahvor.py:42-139", "mrcal/cahvor.py:141-271", "mrcal/cahvor.py:291-408"]}
{"id": "C89", "title": "OpenCV and ROS files are read with the meaning of their fields", "statement": "An OpenCV/ROS calibration file, or a CameraInfo message, is accepted exactly if each field is there under exactly one of its names, with the right shape and structure; the model that is read has the intrinsics, distortions and imager size of these fields, and its pose follows the convention of ROS: the projection matrix P applied to a point in the left rectified coordinates is what its left part produces for the rotated point in camera coordinates. A model written to such a file and read from it observes each point in camera coordinates at the same pixel.", "quantifier": "for all nested dictionaries, all values; all models", "why_tests_cant": "The fields have many names and shapes, with defaults for missing and zero matrices, and the meaning of P and R is a convention: a test can check the few files at hand", "anchors": ["mrcal/cameramodel.py:895-1163", "mrcal/cameramodel.py:1374-1454"]}
{"id": "C90", "title": "Quaternions mean the same rotation as the matrices", "statement": "R_from_quat() of a unit quaternion is a rotation, and rotates the vectors as the algebra of quaternions says: v becomes q v q*; the product of quaternions is the composition; (cos(a/2), sin(a/2) axis) is the rotation by a about the axis. quat_from_R() produces a finite unit quaternion for any matrix whatsoever; for a rotation it is the quaternion of this rotation whose largest element is positive, so R_from_quat() recovers the matrix exactly, and the documented angle 2 atan2(|q[1:]|,q[0]) and axis q[1:]/|q[1:]| are those of the rotation. Rt to qt to Rt preserves the transformation; qt to Rt to qt preserves it up to the sign of the quaternion.", "quantifier": "for all quaternions, all matrices, all rotations including those by 180 degrees, all poses", "why_tests_cant": "The conversion selects one of 4 formulas by a comparison of the elements, and divides by a norm: the boundaries between these, and the half-turns, are measure-zero sets that sampling does not hit", "anchors": ["mrcal/_poseutils_scipy.py:94-139", "poseutils-genpywrap.py:1061-1095", "mrcal/poseutils.py:1538-1545", "mrcal/poseutils.py:1601-1608"]}
{"id": "C91", "title": "Reprojection maps: each pixel shows what the other camera sees there", "statement": "image_transformation_map(model_from, model_to) returns one entry for each pixel of the TO imager. If a point is along the ray of the TO pixel (x,y) and is on the given plane (or at the given distance; or, by default, infinitely far away; or with intrinsics_only, the cameras coincide), then mapxy[y,x] is the pixel where the FROM camera sees this same point; with a mask this is (-1,-1) if that pixel is outside the valid region. A point moving away to infinity converges to the pixel of its direction. The special OpenCV path computes exactly what the general path computes. Calls succeed unless the arguments conflict, the TO camera cannot be unprojected, the plane contains one of the cameras, or the mask is requested without a region.", "quantifier": "for all pairs of models whose FROM lens is central, all poses, planes with positive plane_d, distances, pixels", "why_tests_cant": "Tests compare some reprojected images of a few pairs of cameras; a wrong inverse of the homography, a transposed rotation or a missing translation shows only in specific geometries", "anchors": ["mrcal/image_transforms.py:276-504"]}
{"id": "C92", "title": "Fitted pinhole models: the image is as large as possible and nothing requested is lost", "statement": "pinhole_model_for_reprojection(): the model has the pose and the center of the input model, and its focal lengths multiplied by the requested scale. With fit=..., the scale is the largest one (up to 1e6) for which each requested point is in the image: all of these are visible, one is at the edge, and any larger scale loses one. With scale_image=k, the result is the same image stretched by k: pixel+1/2 is multiplied by k, the size is k times the size rounded to the nearest, and what was in the image remains in it. fit and scale_focal together are rejected.", "quantifier": "for all models with positive focal lengths and a center inside the imager, all sets of points whose rays are off the two image axes, all scales", "why_tests_cant": "Optimality quantifies over all scales and all points; tests use one model with off-center points and cannot see the division by 0 of points that are on an axis", "anchors": ["mrcal/image_transforms.py:18-147", "mrcal/image_transforms.py:150-273"]}
{"id": "C93", "title": "unproject() from Python: the vectors and their gradients", "statement": "unproject(q, lensmodel, intrinsics, normalize, get_gradients). With get_gradients, dv_dq is the derivative of the reported vector with respect to the pixel, and dv_dintrinsics is its derivative with respect to the intrinsics: for the models with a closed-form inverse this is the derivative of the function that is returned, and for all the others of the (unique, locally existing, differentiable) inverse of the projection; the pixel is held fixed for dv_dintrinsics, and the intrinsics for dv_dq. With normalize the vectors have length 1 and each gradient column is orthogonal to the vector. The vector points in the same direction with or without gradients, and is identical if normalized. A pixel that could not be unprojected is reported as such in the same way with or without gradients.", "quantifier": "for all lens models except CAHVORE, intrinsics, pixels, solver results at which the projection is regular and has a nonsingular gradient; existence of the inverse: at points where the projection is continuously differentiable in the point and the intrinsics (proved for OPENCV and CAHVOR)", "why_tests_cant": "The gradients of an implicitly-defined inverse: tests compare finite differences at a few pixels for a few models; the solver tolerance hides errors", "anchors": ["mrcal/projections.py:112-397"]}
{"id": "C94", "title": "triangulate(): the reported points are triangulated, and the reported covariances are those of the points", "statement": "mrcal.triangulate(q, models, ...) reports, for each pair of observations, the point produced by the given method from the two observed rays in the coordinates of the first camera. With mid2 and wmid2: a point that is observed perfectly by both cameras is reported exactly, and the reported points do not depend on the given noise levels, correlation or stabilization. Requested outputs only: Var_p_calibration is reported if and only if q_calibration_stdev is given, Var_p_observation if and only if q_observation_stdev is given, Var_p_joint with both. Zero noise produces zero covariances. Var_p_observation is, to first order, the covariance of the reported points due to independent noise in the observed pixels, correlated between the two cameras; Var_p_calibration is the covariance (between all the points) due to noise in the calibration observations, when the calibration is re-solved; with stabilize_coords these are the points moved into the original coordinates through the calibration-time frames. Var_p_joint is the covariance with both sources of noise present. The covariances are available whenever the calibration problem has full rank and the pixels can be unprojected.", "quantifier": "all arrays of observation pairs and camera pairs from one calibration, all lens models, all triangulation methods, all noise levels, all white noise processes, any mixture of fixed and optimized variables", "why_tests_cant": "The covariance is a property of infinitely many re-solved calibrations: tests sample a few hundred noise realisations of one synthetic problem and compare the variances with a tolerance of tens of percent", "anchors": ["mrcal/triangulation.py:27-58", "mrcal/triangulation.py:1090-1613", "mrcal/triangulation.py:1616-2018"]}
{"id": "C95", "title": "implied_Rt10__from_unprojections() and sample_imager(): the transformation that lines up two cameras' view of the world, from a grid of pixels that covers the image", "statement": "sample_imager(gridn_width, gridn_height, W, H) returns gridn_height rows of gridn_width pixels, evenly spaced from (0,0) to (W-1,H-1), all inside the image; without gridn_height, the number of rows is the integer closest to gridn_width*H/W. mrcal.implied_Rt10__from_unprojections(q0, p0, v1, weights, atinfinity, focus_center, focus_radius): only the pixels closer than focus_radius to focus_center are used; points or vectors with non-finite values or weights have no effect. With atinfinity the solver minimizes the weighted squared chord between the rotated p0 and v1; otherwise between the direction of the transformed p0 and v1; the gradients given to the solver are the derivatives of these. If the two sets of vectors can be lined up exactly, then a solver that finds the optimum returns a transformation that lines up every point that was used; at infinity there is no translation, and if two of the vectors are independent, then the rotation is the true one. Fewer than three pixels in the focus region are an error.", "quantifier": "all grids, all imager sizes, all lists of points and vectors with any NaN entries, all weights, all focus regions, all optimal solvers", "why_tests_cant": "The fit is compared with tests on a few synthetic cameras, with a tolerance; that all the gradients are right, that NaN data anywhere has no effect, and that an exact match is always found cannot be sampled", "anchors": ["mrcal/model_analysis.py:27-396", "mrcal/utils.py:268-323"]}
{"id": "C96", "title": "projection_diff(): the difference between camera models is the distance between where they see the same point of the scene", "statement": "mrcal.projection_diff(models, ...) reports for each pixel q0 of the grid and each distance d: unproject q0 with the first model to a point at this distance, transform it by the chosen transformation, project it with the other model, and subtract q0. With more than two models the result is the root-mean-square of these lengths. The transformation is the given implied_Rt10 if there is one; identity with intrinsics_only; the one in the extrinsics of the models if focus_radius=0; otherwise the fit. With the extrinsics, the difference is the distance between the pixels where the two cameras see one and the same scene point; two cameras with the same lens and pose have a difference of zero. With the fit: if one transformation explains all the pixels in the focus region exactly, then the difference is zero in all of the focus region. Moving all of the models together has no effect. The call succeeds exactly if: implied_Rt10 isn't given with more than two models, the imagers have the same size, and the fit is possible. For distance=None noncentral CAHVORE models are treated as central; at a finite distance they are an error.", "quantifier": "all lists of models with all lens models, all grids, all distances, all focus regions, all optimal solvers", "why_tests_cant": "The tests compare a few pairs of models against differences computed with the same functions; the meaning of the difference at every pixel and distance, and the independence from the reference coordinates, hold for all models", "anchors": ["mrcal/model_analysis.py:1520-1929"]}
{"id": "C97", "title": "stereo_pair_diff(): the difference between camera pairs is the distance between where their second cameras see what their first cameras see", "statement": "mrcal.stereo_pair_diff(((a0,a1),(b0,b1)), distance=d) reports at each pixel q of a grid in the first imager: a point at distance d along the ray of q in a0, projected to a1; the same with b0,b1; the second minus the first, and its length. Without a distance these are directions, and the translations of the cameras do not matter. The returned reproject function does this for one pair, from either camera; at infinity, going there and back returns the same pixel. Each pair may be expressed in its own reference coordinate system: the result is the same, and a pair compared with itself has no difference. The call succeeds exactly with two pairs whose corresponding imagers have the same size.", "quantifier": "all pairs of models with all central lens models, all grids, all distances", "why_tests_cant": "There are no tests of this function; its meaning for all the pixels, distances and coordinate systems cannot be sampled", "anchors": ["mrcal/model_analysis.py:1930-2104"]}
{"id": "C98", "title": "model_resolution__deg_pixel() reports the smallest and largest angle covered by a pixel", "statement": "mrcal.model_resolution__deg_pixel(q, model, mode): let v be the observation vector of q. Turning v by a small angle in some direction moves the pixel. mode='min' and 'max' are the smallest and the largest angle in degrees per pixel of movement over all the directions, and both are attained in some direction; 'mean' is their average and 'eccentricity' their ratio. If a direction moves the pixel by less than 1e-3 pixels per radian then 'max' is exactly 1000 radians. There is a value for each pixel of the array, NaN exactly if the pixel cannot be unprojected.", "quantifier": "all lens models, all intrinsics, all pixels where the projection is differentiable, all directions", "why_tests_cant": "A test can compare some directions at some pixels with finite differences; the extremes over all the directions for all lens models cannot be sampled", "anchors": ["mrcal/model_analysis.py:2152-2244"]}
{"id": "C99", "title": "The frame number of an image is the number in its file name, and its camera is the camera it was given for", "statement": "mapping_file_framenocameraindex(files of camera 0, files of camera 1, ...): if the file names of each camera are a fixed string, a number and another fixed string, and if the call succeeds, each file is mapped to (the number in its name, the index of its camera). The digits that happen to be common to all the names of a camera are a part of the number. So images of different cameras with the same number have the same frame number. If the numbers of a camera have the same number of digits and aren't all the same, they are found. With one camera the call always succeeds: if there are no numbers to be found, the images are numbered in the given order. (It's not true that all the file names of the documented form are accepted: images 1 and 10 are refused.)", "quantifier": "all lists of file names of all the cameras", "why_tests_cant": "The file names are arbitrary strings; the common prefixes and suffixes may overlap or contain digits; a test has a few names.", "anchors": ["mrcal/utils.py:788-938"]}
{"id": "C100", "title": "compute_chessboard_corners() reports each corner of each image at its place in the grid, with its weight, in the right camera and frame", "statement": "compute_chessboard_corners(W,H, corners_cache_vnl=file): the reported paths are those of the images with a board, that have more than the minimal number of detected corners, that aren't excluded and that belong to a camera, each one once. The array of each one has, at (iy,ix), the corner in line iy*W+ix of this image: its coordinates with the weight 1/2^level, or the given weight, or 1, as was asked for; or a negative weight if there's no corner. The camera index is the first camera whose glob matches. The frame indices are contiguous integers starting with 0, sorted; two images have the same frame index exactly if they have the same frame number; with numbered file names, exactly if the numbers in the paths are the same. The images of a frame are sorted by the camera. The call succeeds exactly if all the lines can be read, each image has one line or the full grid, each camera has enough images, and the frame numbers can be found. (Images with exactly the minimal number of corners are thrown out, unlike the documentation says.)", "quantifier": "all the lines of the file, all the sizes of the grid, all the cameras, globs, exclusions", "why_tests_cant": "The file is an unbounded sequence of lines; the images come in any order, with any number of cameras; two stable sorts and a running index produce the frame indices.", "anchors": ["mrcal/calibration.py:24-505"]}
{"id": "C101", "title": "Seeding a calibration recovers the true poses from consistent data, or reports an error", "statement": "Given the pose of the chessboard in respect to each camera that saw it (in each frame), the seed of a calibration has the pose of each camera and of each chessboard. If the given poses are consistent with fixed cameras and a rigid chessboard, then the poses that are returned are the true ones: rt_cam_ref has the pose of camera i+1 at index i, in respect to camera 0; rt_ref_frame has the pose of each observed chessboard, in order of the frames. Cameras are related through chains of other cameras if needed. Cameras that aren't connected to camera 0 through pairs that share at least two frames are reported as an error; all other data in order is accepted.", "quantifier": "for all numbers of cameras and frames, all camera and chessboard poses, all sets of observations, all chessboard sizes of at least 2x2 corners, all singular value decompositions and heaps that meet their contracts", "why_tests_cant": "Tests seed a few small camera rigs from noisy data and check that the later optimization converges; they can't cover all connectivity graphs, nor distinguish a slightly wrong seed from noise.", "anchors": ["mrcal/calibration.py:925-1100", "mrcal/calibration.py:1316-1395", "mrcal/calibration.py:1575-1608"]}
{"id": "C102", "title": "A stereographic seed made from exact chessboard images is the true one", "statement": "seed_stereographic() with the images of a chessboard, as seen by stereographic cameras that have the given focal lengths: each camera gets its focal length (the common one, if only one is given) and its imager center; the pose of each camera in respect to camera 0 and the pose of each chessboard are the true ones, if the images are exact, and each has at least 6 weighted corners that aren't collinear. Corners without a weight have no effect. A list of focal lengths that has neither one nor one per camera is an error.", "quantifier": "for all numbers of cameras, imager sizes, focal lengths, camera and chessboard poses, chessboards, sets of visible corners, and all PnP solvers that return a consistent pose if there is one", "why_tests_cant": "Tests seed one or two rigs from noisy data and check that the optimization then converges; they can't cover all poses, and can't show that the pose is determined by the data for each admissible set of corners.", "anchors": ["mrcal/calibration.py:508-781", "mrcal/calibration.py:1398-1608"]}
{"id": "C103", "title": "Perfect observations are explained perfectly; the hypothesis points are those of the optimizer", "statement": "hypothesis_board_corner_positions() reports each chessboard corner of each observation in the coordinates of the observing camera, using the same chessboard shape, poses and corner order as the optimizer; the inliers and outliers of the requested camera are a partition of its corners. make_perfect_observations() without noise replaces the pixels, and nothing else; then every board and point measurement reported by optimizer_callback() is exactly 0. With noise, each measurement is the noise sample times the requested (or the current) standard deviation. Outliers stay outliers, and the caller's arrays of flags are not changed.", "quantifier": "for all optimization inputs: any lens model, numbers of cameras, frames, points, any chessboard with or without deflection, any weights, any noise samples, any mask of inliers", "why_tests_cant": "The source says that it doesn't check this and relies on tests; a test checks one synthetic calibration. The python code and the C callback compute the points in different ways (matrices, composed Rodrigues vectors), with separate indexing of corners and cameras.", "anchors": ["mrcal/utils.py:440-584", "mrcal/synthetic_data.py:594-750"]}
{"id": "C104", "title": "Cameras survive a conversion to the kalibr format and back; grafting keeps the geometry", "statement": "mrcal-to-kalibr followed by mrcal-from-kalibr gives the same cameras: the same imager sizes, and every camera sees every point at the same pixel. Each T_cn_cnm1 matrix takes the coordinates in the previous camera of the file to the coordinates in this camera. If either tool is asked for --cam0-at-reference the first camera is at the reference and the relative poses are kept. mrcal-from-kalibr accepts exactly the files with a supported lens with the right number of parameters and valid matrices; --camera gives the same model as converting all of them. mrcal-graft-models gives the lens of the one model, placed by the pose of the other, corrected by the implied transformation if that is requested.", "quantifier": "for all sequences of models of any length with supported lens models and any poses, all options, all contents of a kalibr file", "why_tests_cant": "The poses of a chain accumulate, with an inversion and a composition on both sides: a test uses one or two cameras, and a wrong order or direction agrees with the right one for special poses. Which files are accepted can't be sampled.", "anchors": ["mrcal-to-kalibr:100-219", "mrcal-from-kalibr:150-363", "mrcal-graft-models:195-225"]}
{"id": "C105", "title": "mrcal-rotate-corners turns each board as requested, and loses nothing", "statement": "Each image in the corners file that is selected by --90, --180 or --270 has its square board turned by that angle: the line of each corner is moved to the place of this corner in the turned board. All other images are as they were. Every line of the input is in the output, exactly once, grouped by image, in the order of the image names. The tool accepts exactly the files in which each image has all the corners, or a single line. Turning back gives the original file.", "quantifier": "for all board sizes, all files, with any number of images in any order, all selections", "why_tests_cant": "The corner index is accumulated incrementally over the lines, in four directions, with a sort afterwards: a test has one board size and a few images. What happens between images and at the borders depends on the size.", "anchors": ["mrcal-rotate-corners:111-178"]}
{"id": "C106", "title": "mrcal-cull-corners throws out exactly the corners it was asked to throw out", "statement": "The output has the same lines as the input, in the same order; in some of them the level is replaced with '-'. With --cull-left-of X these are the corners left of X. With --cull-rad-off-center D: those further than D from the center; D<0 is measured from the corners of the imager. With --cull-rad-off-center-board R: those that are R or more squares away from the center of the board. Only the images selected by --filename are touched. With --cull-random-observations-ratio whole images are dropped, and the others are left as they are.", "quantifier": "for all corners files, all thresholds, all imager and board sizes, all selections", "why_tests_cant": "The board coordinates of a corner are accumulated over the lines of the file; tests can't cover the arrangements of images, missing corners, and thresholds, or those at the edges (negative, equal).", "anchors": ["mrcal-cull-corners:134-292"]}
{"id": "C107", "title": "The python index functions describe the problem that optimize() solves", "statement": "For any optimization_inputs that optimize() accepts, passing the same inputs to mrcal.num_states() and mrcal.num_measurements() gives the sizes of the state b and of the measurements x that optimize() uses. mrcal.state_index_...() and mrcal.measurement_index_...() place each optimized variable and each measurement at a different index, in the documented order, with no index of b or x left over. mrcal.num_states_KIND() and mrcal.num_measurements_KIND() give the size of the contiguous block of each kind, which starts at the index reported for item 0; item 0 is reported as None exactly if the block is empty. An item that isn't being optimized is reported as None.", "quantifier": "all optimization inputs: any numbers of cameras, frames, points and observations, any selections, any lens model, any grouping of the triangulated points, arrays given, omitted or None", "why_tests_cant": "The wrappers compute the sizes from their arguments separately from optimize(), some without the lens model or without the observations themselves; tests compare a handful of problems. Only a proof covers every combination of missing arrays and selections", "anchors": ["mrcal-pywrap.c:2200-3247", "mrcal-pywrap.c:1676-1794", "mrcal.c:217-735"]}
{"id": "C108", "title": "A changed packed state can be put back into the optimization inputs", "statement": "mrcal.ingest_packed_state(b, **optimization_inputs) writes the packed state b into the arrays: each variable that is being optimized becomes its element of b (at the place where the state_index functions say it is) times its unit; locked intrinsics, fixed points and everything else that isn't being optimized keep their values; packing the result gives b again. A vector of the wrong length is rejected", "quantifier": "all optimization inputs that optimize() accepts, all vectors b, all contents of the arrays", "why_tests_cant": "depends on python slicing, on when numpy makes a copy instead of a view, and on agreement between three independently-written layouts of the state; failures are silent for some combinations of locked variables", "anchors": ["mrcal/utils.py:1103-1210", "mrcal-pywrap.c:3420-3590", "mrcal-pywrap.c:2200-2800"]}
{"id": "C109", "title": "Synthetic board observations are what the returned board poses produce, and exactly the qualifying boards are returned", "statement": "mrcal.synthesize_board_observations(models, ...) returns as many frames as asked for: the first boards that qualify, in the order they were randomly generated, with none that qualifies left out. For each, the observations are exactly the projections, by each camera, of the corners of the board placed at the returned pose; that pose puts the middle of the board at the nominal pose plus the random numbers times the noise radius; the visibility requirement (full or half board, all or some cameras) holds, and so does the limit on the angle between the board and the view. Asking for fewer frames with the same random numbers gives the beginning of the same result. It ends when enough boards qualify", "quantifier": "all sets of cameras and lens models, board sizes, deformations, noise, requirements, numbers of frames, and all sequences of random numbers", "why_tests_cant": "random; the pose used internally has a different origin from that returned, and the loop generates its boards in chunks until it has enough", "anchors": ["mrcal/synthetic_data.py:236-554"]}
{"id": "C110", "title": "match_feature() reports where the template fits best", "statement": "mrcal.match_feature(image0, image1, q0, ...) takes as its template the part of image0 that the homography (or the translation from q0 to q1_estimate) maps to a box of the given size centered at the estimate in image1. The reported q1 is the estimate, moved to a place within the search radius where the template is entirely in image1 and where it fits best, none of them fitting better; and moved by the stationary point of the quadratic surface that fits best to the 3x3 scores there. None means that the best place is at the edge of what was searched. If image1 shows at an integer translation what image0 shows around q0, and nothing else that's searched is the same (or is a multiple, with the default method), and it isn't at the edge, then q1 is at that translation, up to the subpixel correction; and that is 0 if the scores are symmetric. It is an exception if the template isn't in either of the images", "quantifier": "all images, sizes, homographies, estimates, radii and methods; cv2.remap(), cv2.matchTemplate() and np.linalg.lstsq() meeting their documentation", "why_tests_cant": "conversions between template corners, centers, output arrays cropped by the image bounds, and rounded pixels cancel out; a test with one image checks one rounding", "anchors": ["mrcal/stereo.py:1609-2046", "mrcal-genpywrap.py:721-782"]}
{"id": "C111", "title": "optimize() as a whole: what is left behind by a success, a failure, a refusal", "statement": "mrcal_optimize() always returns, whatever the solver does, as long as each call of the solver returns: the solve/reject loop ends. After a success: mrcal_optimizer_callback() called with the arrays and observations as they were left reports the same state and the same residuals; the cost isn't more than it was with what the caller gave; the reported RMS is the root of the mean square of the reported residuals; every optimized quantity is what the final state says, and everything locked is untouched; if outlier rejection was asked for then no observation still in use is an outlier, and the count is of those not in use; without it the observations are untouched. Outliers are only ever added. After a failure the arrays are what they were. If the arguments make no sense or a buffer has the wrong size, then nothing is touched, and the result is an error; otherwise the call fails only if the solver does. Python always passes buffers of the right size", "quantifier": "all problems, selections, seeds and observations; every solver that reports residuals and a cost that belong to the state it returns, and that doesn't do worse than its seed", "why_tests_cant": "the solver, packing, outlier marking and unpacking each work on their own copies of the state; that they agree after any number of passes is a statement about all runs, and the failure paths are hardly ever run", "anchors": ["mrcal.c:6180-6624", "mrcal.c:5972-6177", "mrcal-pywrap.c:1700-1900", "types.h:318-345", "doc/c-api.org:385-410"]}
{"id": "C112", "title": "Contours: where a splined model is defined, and densified polylines", "statement": "The contour the python code reports for the domain of a splined model is a closed polyline, and as a set of points it is exactly the boundary of the set where the C code interpolates the spline (elsewhere it extrapolates the outermost piece); an order other than 2 or 3 is an error. A densified polyline is the same set of points as the one given, has all the given points in it, in the same order, starts and ends at the same points, and no step is longer than the spacing asked for", "quantifier": "all orders, all numbers of knots the library takes, all knot densities; all polylines and all spacings", "why_tests_cant": "the contour and the C code describe the same region in two languages with two conventions; agreement everywhere isn't a matter of sample points", "anchors": ["mrcal/utils.py:587-645", "mrcal/utils.py:749-776", "mrcal.c:2164-2216"]}
{"id": "C113", "title": "Point clouds written to .ply files can be read", "statement": "write_point_cloud_as_ply() accepts exactly the documented shapes of the points and colors. The file it writes, binary or text, can be read by a reader of that format: it has as many vertices as there are points, in the same order, with the coordinates under x, y, z, and the colors under the right names (given as blue, green, red; read as red, green, blue; or as an intensity)", "quantifier": "all numbers of points, all coordinates, all colors, all ways to give the colors, both encodings", "why_tests_cant": "the file is for other programs, with their own readers; that it's well formed for every number of points, and every byte that the data can have (a newline, for instance) isn't a matter of a sample", "anchors": ["mrcal/utils.py:1578-1750"]}
{"id": "C114", "title": "mrcal-calibrate-cameras does what its options say", "statement": "The options are accepted exactly as documented. If the functions that are called succeed, then models are written exactly if the options are accepted, and for each camera there's an image and a size that --imagersize, --seed and the image all agree on. One file is written for each camera, under different names, in order. Each has the lens model, that size, the selections that were asked for, and its own part of the one solution: the first camera is at the origin. --skip-intrinsics-solve keeps the intrinsics of the seed; --skip-extrinsics-solve keeps the relative poses of the seed; --skip-outlier-rejection keeps the corners; otherwise corners only become outliers. With --seed nothing is random; without it the first full solve starts with negligible distortions. Each camera has its own focal length", "quantifier": "all options, all numbers of cameras, all images and corners, all solvers that keep what is locked (C111)", "why_tests_cant": "the tool runs several solves in sequence on arrays that are modified in place, and needs images of chessboards: tests run it on one dataset, and compare with a tolerance; that an option has its effect through all the solves, for every dataset, isn't seen in one", "anchors": ["mrcal-calibrate-cameras:316-383", "mrcal-calibrate-cameras:386-669", "mrcal-calibrate-cameras:680-765", "mrcal-calibrate-cameras:785-853", "mrcal-calibrate-cameras:913-923", "mrcal/cameramodel.py:1258-1279"]}
{"id": "C115", "title": "stereo_range() and stereo_unproject(): bounds, whole images, lists of pixels, and the reference implementation", "statement": "mrcal.stereo_range() accepts the pair of models made by mrcal.rectified_system(), and uses their baseline. A disparity d is reported as a range if d/disparity_scale is positive and within the given bounds; 0 is reported otherwise. It doesn't matter whether a bound is given in pixels or scaled, nor whether the disparities are a whole image, a list with the pixels given in qrect0, or a single number: the same pixel with the same disparity gets the same range. World points seen by both rectified cameras get their distance from camera0. The reference implementation in Python reports the same. mrcal.stereo_unproject() makes points that are seen at their pixel by rectified camera0, and at the pixel shifted by the disparity by rectified camera1; precomputed ranges give the same points as the disparities.", "quantifier": "all pairs of rectified models, all disparity images (signed or unsigned 16-bit), all lists of disparities and pixels, all scales and bounds", "why_tests_cant": "The conversions to 16-bit integers and the two ways to give each bound interact with the type of the disparities and with the choice between image and list; the tests compare one image with default bounds.", "anchors": ["mrcal/stereo.py:784-819", "mrcal/stereo.py:978-1308", "mrcal/stereo.py:1311-1451", "mrcal/stereo.py:1453-1607", "stereo.c:1263-1421"]}
{"id": "C116", "title": "mrcal-convert-lensmodel: what is solved, what is written, and where", "statement": "The tool solves the calibration problem of the given model again with the new lens model: the observations, their weights, the images and the imager sizes are those of the original problem; a corner that the new solution uses was used before. --radius and --where limit this to the corners in that region; --monocular to the observations of the one camera, which sees every board corner exactly where it did before. With --sampled, the new lens is fitted to samples instead: a grid of pixels in the region, each with a point at one of the given distances that the original model sees in that pixel; the trial with the smallest error wins. The model that is written has the new lens; its pose is that of the input followed by the fitted transform, or exactly that of the input with --intrinsics-only. The output goes to a file named after the input and the lens model, in the same directory or in --outdir; it is never the input file; --all writes one file per camera, all different. Existing files are not overwritten without --force; inconsistent options are errors and write nothing.", "quantifier": "all models, calibration problems, options and file names; all results of the optimizer that keep what it isn't asked to change", "why_tests_cant": "The tool's tests are a handful of conversions with default options; the interaction of the options, file names, camera indices and the reference camera isn't explored.", "anchors": ["mrcal-convert-lensmodel:276-911", "mrcal/utils.py:440-584"]}
{"id": "C117", "title": "The valid-intrinsics region of a calibrated camera is made of the cells that meet the stated criteria", "statement": "mrcal-calibrate-cameras divides the imager into a grid of cells and reports for each the number, mean and standard deviation of the residuals of this camera's inlier observations strictly inside it; no observation counts in two cells. The valid-intrinsics region that it writes into the model is empty, or it is a closed contour of at least four points inside the imager that the model accepts as it is. Each vertex is the center of a cell (to within half a pixel) where the projection uncertainty, the mean and the standard deviation of the residuals are below the given thresholds and where enough observations were made; splined models are judged by the uncertainty only. Of several contours it is the one with the largest area. If no cell meets the criteria, the region is empty. The plots of the statistics and of the residuals show the requested grid and this region.", "quantifier": "all models, observations, residuals, thresholds and grid sizes; all results of unproject(), projection_uncertainty(), and of findContours() that are contours of the mask", "why_tests_cant": "The tests don't compute a region from a calibration; which cells pass depends on where the observations fall and on the signs of the residuals.", "anchors": ["mrcal/calibration.py:1611-1866", "mrcal-calibrate-cameras:222-255,882-906", "mrcal/visualization.py:3160-3220,3680-3704,4090-4194"]}
{"id": "C118", "title": "mrcal-reproject-image writes the reprojections of the given images under the documented names, and nothing else", "statement": "Each image that can be read and has the size of the model it was taken with is reprojected and written as NAME-SUFFIX.EXT, in --outdir or beside the image; the suffix says which of the three modes made it. The output is never the input. No other file is touched. Unless --force is given, no existing file is touched either. With --to-pinhole the pinhole model that the images were reprojected to is the one that's printed. Options that contradict each other, or that don't apply to the mode, are refused before anything is written. --fit accepts any list of two or more pixels.", "quantifier": "all arguments, file systems and contents; all models; all results of reading and writing images, of the pinhole fit and of the transformation maps; any schedule of the parallel jobs", "why_tests_cant": "The tests don't run this tool; which files are written depends on the names, on what exists already, and on which options are combined.", "anchors": ["mrcal-reproject-image:340-616"]}
{"id": "C119", "title": "The tools that work on pixels report what the models say: mrcal-reproject-points, mrcal-report-fov, mrcal-is-within-valid-intrinsics-region", "statement": "mrcal-reproject-points writes a row for each pixel, in order: where the other camera sees what is at infinity along the ray of this pixel; with --intrinsics-only, where it sees the same vector in camera coordinates. Translations don't matter; a warning is given if the cameras are more than 1mm apart. A pixel that can't be unprojected makes a NaN in its own row only. The tool undoes mrcal-reproject-image: it maps the pixel that was copied to (x,y) back to (x,y). mrcal-report-fov reports the angles between the rays of opposite edges through the principal point, and of opposite corners; 'undefined' exactly for those that can't be computed. is_within_valid_intrinsics_region() has a value for each pixel, or None if there is no region; the keys that its tool joins the tables by are sorted.", "quantifier": "all camera models, poses, pixels and solvers; all numbers of records", "why_tests_cant": "The tests don't run these tools; the field of view depends on where the principal point is, and on which pixels can be unprojected.", "anchors": ["mrcal-reproject-points:80-100", "mrcal-report-fov:70-119", "mrcal/model_analysis.py:2106-2149", "mrcal-is-within-valid-intrinsics-region:86-140"]}
{"id": "C120", "title": "The format converters convert each model, and lose no files: mrcal-from-cahvor, mrcal-from-ros, mrcal-to-cahvor", "statement": "Each input is read and written in the other format, into a file with the same name and another extension, next to the input or in --outdir. Without --force no file that exists changes, whether the tool succeeds or fails; only the targets of the inputs are ever written, and an input is never written over itself. '-', or no arguments, converts the standard input to the standard output; two '-' are an error. If the tool succeeds, all the inputs were converted, or their targets existed. The format of a file follows from its extension and the options of cameramodel.write(), and a note is written at its top.", "quantifier": "all lists of inputs, options, files, readers and writers of models", "why_tests_cant": "The tests don't run these tools; what happens depends on the names of all the inputs together, and on the files that exist.", "anchors": ["mrcal-from-cahvor:69-102", "mrcal-from-ros:121-154", "mrcal-to-cahvor:69-99", "mrcal/cameramodel.py:1353-1475", "mrcal/cahvor.py:410-417"]}
{"id": "C121", "title": "mrcal-triangulate matches features with the right homography, perturbs and corrects poses by rotations of the camera, and reports the largest sensitivity", "statement": "The homography that the matcher gets maps the feature to the pixel where the second camera sees the point of the plane that's at the feature, for any lenses; with pinhole lenses it does this for all points of the plane. Without a plane, the reported pixel is where the second camera sees the point at the distance --range-estimate. A perturbation by a yaw and a pitch is a rotation by exactly these angles around the normal of the epipolar plane and around the baseline, applied in the coordinates of the first camera, followed by the unperturbed pose and by the shift; no perturbation leaves the pose unchanged. The sensitivity that's reported is the largest one over the samples, in the direction that's reported with it. The corrected model has the second camera rotated by the angles that were found, and the first one stays; if the rays can be made to converge the correction is found, and a failure is reported. The axes of the plot are a rotation with the first axis along the baseline and the point in the plane of the first two.", "quantifier": "all cameras, lenses, features, planes, perturbations, lists of samples, error functions", "why_tests_cant": "The tests don't run the tool; homographies, axes and rotations depend on real numbers, and tests with a few poses can't tell that they're right for all of them.", "anchors": ["mrcal-triangulate:293-369", "mrcal-triangulate:436-450", "mrcal-triangulate:547-585", "mrcal-triangulate:686-718", "mrcal-triangulate:772-782", "mrcal-triangulate:825-839", "mrcal-triangulate:850-917"]}
{"id": "C122", "title": "mrcal-stereo writes the files of each pair of images into the output directory, never overwrites without --force, and its point clouds have the right positions and colors", "statement": "mrcal-stereo only changes the files DIR/IMAGE-SUFFIX-TAG.EXT of the pairs of images that are given (the i-th match of the first glob with the i-th match of the second one), or the two rectified models if no images are given. Everything is right in the output directory, wherever the images are and whatever the tag is. No file is ever removed, and without --force no existing file changes. If a pair is processed, each of its files has what was computed for it, unless it existed. The numbers of the matches must be the same and not zero, or nothing is written and it's an error. On success all pairs have their files. The points in the point cloud are exactly the unprojected points of the range image that camera 0 sees, in the reference coordinates, and each has the color of the pixel that's nearest to its projection; no point is made from an invalid range. The disparity range is a multiple of 16. The stretch equalization is monotonic and maps the extremes to 0 and 255.", "quantifier": "all command lines, files, images, schedules of the jobs, range images, cameras, tags", "why_tests_cant": "The tests don't run the tool; they can't try all file systems, names, failures and orders of the jobs.", "anchors": ["mrcal-stereo:565", "mrcal-stereo:671-686", "mrcal-stereo:689-816", "mrcal-stereo:819-856", "mrcal-stereo:871-916", "mrcal-stereo:933-1052", "mrcal-stereo:1425-1458"]}
{"id": "C123", "title": "sorted_eig() sorts the eigenpairs, the worst direction that mrcal-triangulate reports is the worst one, and covariance ellipses are the contours at one standard deviation", "statement": "mrcal.sorted_eig() returns the eigenvalues in ascending order, each with its own unit eigenvector in the corresponding column. For a symmetric matrix the first column is the direction that minimizes the quadratic form (so it's the normal of a plane fitted to points), and the last one maximizes it; this holds if eigenvalues are equal, and the eigenvectors aren't orthogonal. mrcal-triangulate reports the largest standard deviation of the point over all directions, with the direction that has it. The ellipse plotted for a mean and a variance is exactly the set of points at a Mahalanobis distance of 1, and in each direction it ends at one standard deviation, for singular variances, too; the ellipse of a set of points has the standard deviations of these points. _Jt_x() is the product of the transposed sparse matrix with the vector.", "quantifier": "all matrices, eigendecompositions, variances, sets of points, sparse matrices", "why_tests_cant": "The test compares the eigenvectors of two random matrices; no test covers ellipses, equal eigenvalues or the reported direction, and finitely many directions can't show a maximum over all of them.", "anchors": ["mrcal/utils.py:1213-1252", "mrcal/utils.py:1256-1285", "mrcal-triangulate:455-467", "mrcal-triangulate:756-766", "mrcal-genpywrap.py:640-718"]}
{"id": "C124", "title": "mrcal-show-residuals-board-observation shows the observations that were asked for, in a correct order from the worst, with their own measurements", "statement": "The observations to show are given as numbers and inclusive A-B ranges, or as globs: exactly the observations that these mean are shown, each in a window, in this order; any other argument, and a glob that matches nothing, is an error. If something that was asked for can't be shown, the tool fails. With --from-worst the observations are ordered by the sum of the squares of their own measurements: each occurs once, the number k has at most k others that are worse; the plot is the same as for the number of this observation. A plot has exactly the corners with a positive weight, each where it was observed, with its measurements as the vector and their size as the color; the RMS error in the title is consistent with that. The image is the one of this observation, where the options say. With --hardcopy exactly one observation may be given, and the file has this.", "quantifier": "all arguments, solves, measurements, weights, image paths and options", "why_tests_cant": "Plots aren't tested at all; which measurements belong to which corner can't be seen in a plot, and a permutation from the worst depends on all the measurements.", "anchors": ["mrcal-show-residuals-board-observation:136-180", "mrcal-show-residuals-board-observation:223-331", "mrcal-show-residuals-board-observation:385-387", "mrcal/visualization.py:3349-3483"]}
{"id": "C125", "title": "show_geometry() plots each camera, calibration object and point where it is", "statement": "mrcal.show_geometry() plots each camera at its own pose: the axes start at its center and end at points of its x,y,z axes, with the optional transform to plot coordinates, and with its own name. Boards and points that come from a solve keep their coordinates relative to the camera of the first model that has a solve, also if that model was moved since the calibration; 'all' shows all of them, 'thiscamera' exactly those that this camera observed. With icam_extrinsics_fromsolve the cameras and boards are where the solve has them, and 'all' has every pose, and the reference if and only if something was observed from there. Explicit boards and points are plotted as given, whatever the models are; point_labels puts each label on the point with this index. Contradictory arguments are errors; valid ones work.", "quantifier": "all poses, models, solves, moved cameras, selections, labels and plot transforms", "why_tests_cant": "Plots aren't tested at all; whether transforms are composed in the right direction can't be seen for symmetric scenes or cameras that didn't move.", "anchors": ["mrcal/visualization.py:214-750", "mrcal/cameramodel.py:673-678", "mrcal/cameramodel.py:1276-1279"]}
{"id": "C126", "title": "The plots of the residuals of a camera show the residuals of that camera, where they were observed", "statement": "mrcal.show_residuals_vectorfield(), show_residuals_magnitudes(), show_residuals_directions() plot one element for each corner and each point that the camera observed, and that isn't an outlier, at the observed pixel; it shows the residual of that observation: the scaled vector and its length, its length, or its direction in (-180,180] degrees. Other cameras and outliers don't appear. show_residuals_histogram() contains the x and y components of exactly these residuals, of one camera or all of them; the curve has the mean and standard deviation of this data, and its height at the mean is the expected number of values in a bin of the histogram centered there. The measurements can be passed as x or as residuals, not both; otherwise those of the solve are used.", "quantifier": "all solves with boards, points or both, all measurement vectors, outliers, cameras, scales, bins", "why_tests_cant": "The plots aren't tested; a solve that has both boards and points of the same camera isn't in the test data.", "anchors": ["mrcal/visualization.py:3486-4087", "mrcal/visualization.py:834-961", "mrcal/utils.py:1286-1543"]}
{"id": "C127", "title": "polygon_difference() returns contours without holes whose union is the difference", "statement": "mrcal.polygon_difference(positive, negative) returns a list of contours; each bounds a polygon without holes, and the union of the polygons is the part of the positive polygon that isn't in the negative one: nothing is added, and nothing is lost when holes are cut open. It always terminates. The line of each cut goes through the centroid and a vertex of the hole.", "quantifier": "all polygons, any number of pieces and of holes, nested cuts", "why_tests_cant": "The shapes of holes and the order of the cuts can't be enumerated; whether the cutting line is long enough depends on the relative size of the hole.", "anchors": ["mrcal/utils.py:648-746"]}
{"id": "C128", "title": "The plot of uncertainty vs distance covers the distances that were observed, along the requested ray", "statement": "mrcal.show_projection_uncertainty_vs_distance() evaluates the projection uncertainty, with the requested method, statistic and pixel noise, at 80 distances in a geometric progression along one ray from the camera: through the center of the imager, through the given pixel, or towards the mean of the points that the camera observed. By default the distances run from 1/5 of the nearest to 10 times the farthest inlier board corner or point that this camera observed, in the coordinates of this camera. The default arguments work. mrcal-show-projection-uncertainty --vs-distance-at shows this curve with its options, or fails with a nonzero status. The contours of the heat maps are 1, 2 or 5 times a power of 10 apart, with 7 to 17.5 intervals in the range.", "quantifier": "all solves with boards or points, cameras at the reference or not, rays, distances, ranges of the heat map", "why_tests_cant": "This plot isn't tested; cameras at the reference that observe discrete points aren't in the test data of the plots; rounding to nice numbers has infinitely many cases.", "anchors": ["mrcal/visualization.py:1909-2156", "mrcal/visualization.py:753-789", "mrcal-show-projection-uncertainty:90-218"]}
{"id": "C129", "title": "The plots of how far a lens is off a pinhole show what the projection does", "statement": "show_distortion_off_pinhole_radial(): for an OpenCV model the plotted curve gives, for each angle off the optical axis, the angle at which a pinhole camera with the same core sees the pixel where the model projects a point at that angle, if the model has radial distortion only. For other models the 8 curves show, for 100 pixels from the center to the corners and the edges, the angle by the model and the angle by a pinhole; the two ways agree. The red, green and blue lines are at the angles of the left and right edges, of the top and bottom, and of the corners, and are all in range. show_distortion_off_pinhole(): each cell of the heat map, each vector, is at a pixel q, and shows how far from q the model projects what a pinhole projects to q; all is 0 for a pinhole.", "quantifier": "all models of each kind, parameters, points in front of the camera, grid sizes, scales", "why_tests_cant": "a test looks at a plot of one lens; that the rational polynomial in a string of gnuplot is the projection, for each number of coefficients, at all angles, is an identity between two programs", "anchors": ["mrcal/visualization.py:2157-2402 show_distortion_off_pinhole_radial", "mrcal/visualization.py:2404-2563 show_distortion_off_pinhole"]}
{"id": "C130", "title": "The plot of the correction of a splined model shows the spline, and where it's defined", "statement": "show_splined_model_correction(): each cell is drawn where its coordinate is (evenly from the first knot to the last, or from corner to corner of the imager), and its value is that of the spline there: the x or y correction or the magnitude, as asked for. The vectors are the correction, scaled. All the knots are shown, and the contour is the boundary of where the spline interpolates. The boundary is the valid-intrinsics region or the imager. A warning is given if and only if some region isn't covered. Contradicting arguments, models that aren't splined, and missing regions are refused. The title says which surface is shown.", "quantifier": "all configurations of order 2 and 3, control points, cores, grid sizes, regions", "why_tests_cant": "a test renders a few models; that the difference of two projections is the spline at every point, in either domain, takes the projection, its inverse, and the plotting strings together", "anchors": ["mrcal/visualization.py:2711-3100 show_splined_model_correction"]}
{"id": "C131", "title": "The valid-intrinsics region is shown as it is, and showing it damages nothing", "statement": "show_valid_intrinsics_region() plots one curve per model, in order: its region, labelled with its name; a region that's empty is a point and is labelled as empty. Exactly these are refused: another number of names than of models, no models, imagers of different sizes, models without a region. The arguments aren't modified. annotate_image__valid_intrinsics_region() draws a closed polygon whose vertices are those of the region to within a pixel, a circle at the center of the imager if the region is empty. mrcal-show-valid-intrinsics-region --write-image writes one file, named after the image, with all the regions; the image itself is never changed; on any failure nothing is written; a file that exists is overwritten only with --force. Without --title the plot has the default title.", "quantifier": "all lists of models, regions, names (lists or tuples), options, and contents of the disk", "why_tests_cant": "tests pass one list of names once; that the call changes it, that a function is defined twice so that an option does nothing, and that no input can be overwritten show over all arguments and states of the disk", "anchors": ["mrcal/visualization.py:2566-2709 show_valid_intrinsics_region", "mrcal/visualization.py:3101-3157 annotate_image__valid_intrinsics_region", "mrcal-show-valid-intrinsics-region:89-194"]}
{"id": "C132", "title": "mrcal-show-geometry shows the cameras that were asked for, with the transforms in the file", "statement": "mrcal-show-geometry --transforms: a file is accepted if and only if each line is a comment or one of the two known kinds, there's exactly one ins2veh, at most one cam2ins for each camera, and at least one cam2ins. Each line means the rotation by its quaternion and then the shift. The order of the lines doesn't matter. Each model is shown with the transform of the camera whose number is in its filename, after the text camera; models that have none are shown without. --icam-extrinsics-from-solve: a list of numbers and ranges, with commas, gives exactly these cameras in this order; -1 works, alone and at the start of a range. Anything else, and several models, are refused.", "quantifier": "all files of any number of lines in any order; all filenames; all lists of numbers and ranges", "why_tests_cant": "that duplicates are found wherever they are, that no order matters, and that parsing inverts printing for all the integers are statements about all files and texts", "anchors": ["mrcal/cahvor.py:419-484 read_transforms", "mrcal-show-geometry:129-160", "mrcal-show-geometry:198-214", "mrcal/visualization.py:276-292"]}
{"id": "C133", "title": "Plots of the state and of the measurements label each element with what it is", "statement": "plotoptions_state_boundaries(), plotoptions_measurement_boundaries(): each element of the state vector, and of the measurement vector, is to the right of the boundary labelled with its kind, and of no later boundary. There's a boundary for each kind that's in the problem, where its block starts, and for no other kind. No optimization inputs that optimize() accepts are an exception.", "quantifier": "all optimization inputs that optimize() accepts, all elements", "why_tests_cant": "a test has one problem; which blocks are there depends on all the sizes and flags, and the labels have to agree with the layout in each combination", "anchors": ["mrcal/utils.py:1004-1102 plotoptions_state_boundaries, plotoptions_measurement_boundaries"]}
{"id": "C134", "title": "The pose of a camera from observations of fixed points", "statement": "When the pose of one stationary camera is estimated from its pixel observations of known points, only the observations of that camera are used, each with the point that it's of; the estimate is refused if observations disagree about the extrinsics, if there isn't exactly one lens model with a core, or if there are fewer than 6 usable observations; and if the observations are exact, and only one pose explains them, then that pose is what's returned, unless an error is reported. Observations with negative pixel coordinates are ignored.", "quantifier": "all observations, lens models, points, camera indices, true poses and PnP solvers", "why_tests_cant": "any pose, any number of observations in any order by any cameras; a test tries a few scenes in which the origin of the points is in front of the camera", "anchors": ["mrcal/calibration.py:783-922 _estimate_camera_pose_from_point_observations"]}
{"id": "C135", "title": "The traversal of sensors in python visits each sensor through a shortest path", "statement": "The python implementation of the traversal of a network of sensors ends without an exception, and reports each sensor that's linked to the root, directly or not, exactly once; no others; closer ones first; each after the parent that it's reported with; and the shortest path to the sensor ends with the link from that parent.", "quantifier": "all numbers of sensors, all links (in one direction or both), all costs that aren't negative, all implementations of the heap that do what's documented", "why_tests_cant": "a test compares two implementations in a few networks, and both could be wrong; the ways in which costs are updated while sensors are in the heap are unlimited", "anchors": ["mrcal/calibration.py:1103-1183 _traverse_sensor_links_python"]}
{"id": "C136", "title": "The python and C implementations of the rotation that's aligned to a vector agree", "statement": "The reference implementation in python and the C implementation of the rotation that maps a vector to the z axis return the same rotation, for every vector other than 0; so the python result is a proper rotation that maps the vector to (0,0,|v|) too.", "quantifier": "all vectors other than 0", "why_tests_cant": "a test compares a few vectors; the choice of the starting axis has two branches, that have to switch at the same place in both", "anchors": ["mrcal/utils.py:1559-1576 _R_aligned_to_vector_python", "poseutils.c:1639-1687 mrcal_R_aligned_to_vector"]}
{"id": "C137", "title": "Observations drawn on top of a plot are those of this camera", "statement": "When a plot of the imager is asked to show the observations from calibration time, each corner and point that this camera observed is drawn exactly once, where it was observed (or where it's reprojected to): in black if it was an inlier, in red if it was an outlier; nothing is drawn for the other cameras, for corners that weren't detected, or twice; what was already in the plot stays; and it's an error if the model has no optimization inputs. Observations of triangulated points are drawn too.", "quantifier": "all sets of observations by any cameras, all weights, all reprojections, all existing plots", "why_tests_cant": "a test looks at one plot, or at none: an observation that's missing from a plot of thousands isn't noticed", "anchors": ["mrcal/visualization.py:966-1036 _append_observation_visualizations"]}
{"id": "C138", "title": "The plot of the projection uncertainty shows the uncertainty where it's drawn", "statement": "The plot of the projection uncertainty has the requested number of cells, spread evenly over the imager; each cell shows the uncertainty of the point at the requested distance in the direction that the pixel at the place of the cell sees (or of that direction at infinity), in the worst direction or RMS as requested, or a very high value if this isn't known; the valid-intrinsics region is shown if it's asked for and available; observations if asked for; the title says what's shown; it's refused only if the method isn't known, if the grid has one row or one column, or if observations are asked for and there are none to be had.", "quantifier": "all camera models, uncertainty functions, grids, distances, and combinations of options", "why_tests_cant": "a plot can't be compared to anything in a test; the place of a cell is decided by gnuplot from factors that are computed separately from the pixels where the uncertainty is evaluated", "anchors": ["mrcal/visualization.py:1668-1905 show_projection_uncertainty"]}
{"id": "C139", "title": "The valid region of the second camera is drawn where the first camera sees it", "statement": "In a plot of the projection difference of two cameras, the boundary of the valid-intrinsics region of the second camera is drawn, if it's asked for and available, at the pixels where the first camera sees the points that the second camera sees at the boundary, at the distance requested: the first one, if there are several.", "quantifier": "all lenses, transformations between the cameras, regions, and distances", "why_tests_cant": "the region is only drawn, never returned; whether numpy scales the vectors or refuses depends on the number of distances given", "anchors": ["mrcal/visualization.py:1363-1412 show_projection_diff", "mrcal/utils.py:749-776 _densify_polyline"]}
{"id": "C140", "title": "The plot of the difference of two stereo pairs shows each camera's region and each difference in its place", "statement": "The plot of the difference of two stereo pairs has one valid-intrinsics region for each of the four cameras that has one (if asked for), with that camera's label: as it is for the first camera of a pair, and where the first camera of the same pair sees it for the second camera, at the distance requested from the first camera, so that the pixels on the curve are the ones that are compared at the boundary. Each arrow of a vector field starts at its pixel, has the direction of the difference there and its length times the requested scale, and the color of the length; unknown differences have the color of a very high one.", "quantifier": "all camera pairs, lenses, regions, distances, grids and scales", "why_tests_cant": "the curves are only drawn, never compared to the differences; the distance from one camera is the distance from the other only at infinity, which is the default that's exercised", "anchors": ["mrcal/visualization.py:1431-1665 show_stereo_pair_diff", "mrcal/model_analysis.py:1931-2103 stereo_pair_diff"]}
