{
 "claims": [
  {
   "property": "C01",
   "status": "proved",
   "theorems": [
    "Verif.Sfm.C01_views_and_landmarks_agree"
   ],
   "note": "For every state reachable by any sequence of valid calls."
  },
  {
   "property": "C02",
   "status": "proved",
   "theorems": [
    "Verif.Sfm.C02_landmarks_nonempty_and_disjoint"
   ],
   "note": "For every reachable state."
  },
  {
   "property": "C03",
   "status": "proved",
   "theorems": [
    "Verif.Sfm.C03_frames_and_views"
   ],
   "note": "For every reachable state."
  },
  {
   "property": "C04",
   "status": "proved",
   "theorems": [
    "Verif.Sfm.C04_constraints_live"
   ],
   "note": "For every reachable state."
  },
  {
   "property": "C05",
   "status": "proved",
   "theorems": [
    "Verif.Sfm.C05_no_panic"
   ],
   "note": "Every call whose stated preconditions hold succeeds in every reachable state; optimize needs finite updates (see C16)."
  },
  {
   "property": "C06",
   "status": "proved",
   "theorems": [
    "Verif.Sfm.C06_dead_keys_stay_dead",
    "Verif.Sfm.C06_new_keys_are_new"
   ],
   "note": "Slot-map version wrap after 2^31 reuses of one slot is not modelled."
  },
  {
   "property": "C07",
   "status": "proved",
   "theorems": [
    "Verif.Sfm.C07_remove_view"
   ],
   "note": "Frame condition for every reachable state."
  },
  {
   "property": "C08",
   "status": "proved",
   "theorems": [
    "Verif.Sfm.C08_split_observation"
   ],
   "note": "Exact effect for every reachable state."
  },
  {
   "property": "C09",
   "status": "partial",
   "theorems": [
    "Verif.Sfm.C09_merge_panics_iff",
    "Verif.Sfm.C09_merge_panics_on_shared_view",
    "Verif.Sfm.C09_merge_landmarks_partial"
   ],
   "note": "False as documented: the merge panics exactly if the landmarks are equal or share a view (iff theorem and witness). The partial theorem gives the exact effect otherwise."
  },
  {
   "property": "C10",
   "status": "proved",
   "theorems": [
    "Verif.Sfm.C10_merge_dedup"
   ],
   "note": "For an arbitrary loss function depending on the state."
  },
  {
   "property": "C11",
   "status": "proved",
   "theorems": [
    "Verif.Sfm.C11_incorporate_reconstruction"
   ],
   "note": "Exact effect for every reachable state with valid matches."
  },
  {
   "property": "C12",
   "status": "proved",
   "theorems": [
    "Verif.Sfm.C12_partial_bijection",
    "Verif.Sfm.C12_exactly_mutual_best"
   ],
   "note": "Exact characterisation, for arbitrary distances and nearest-neighbour answers that are true two nearest."
  },
  {
   "property": "C13",
   "status": "proved",
   "theorems": [
    "Verif.Sfm.C13_progressive_registration",
    "Verif.Sfm.C13_zero_setting_never_ends"
   ],
   "note": "Positive initial setting; for the setting 0 a theorem shows the loop never ends."
  },
  {
   "property": "C14",
   "status": "proved",
   "theorems": [
    "Verif.Sfm.C14_matches_safe",
    "Verif.Sfm.C14_registration_no_panic",
    "Verif.Sfm.C14_registration_panics",
    "Verif.Sfm.C14_three_features_suffice"
   ],
   "note": "Pose estimation and nearest-neighbour search are arbitrary; also: a registration panics if a feature of the first range has fewer than three candidate landmarks, and never if all have three."
  },
  {
   "property": "C15",
   "status": "proved",
   "theorems": [
    "Verif.Sfm.C15_three_view_edges"
   ],
   "note": "Poses form an arbitrary group."
  },
  {
   "property": "C16",
   "status": "partial",
   "theorems": [
    "Verif.Sfm.C16_finite_updates_safe_partial",
    "Verif.Sfm.C16_one_iteration_safe_partial",
    "Verif.Sfm.C16_optimisation_can_panic",
    "Verif.Sfm.C16_removed_neighbour_panics"
   ],
   "note": "False: a witness reachable state where a non-finite update in the first iteration makes the second panic; in general the next round panics whenever a kept view has a constraint with a removed one. Partial: safe if all updates are finite, or for one iteration."
  },
  {
   "property": "C17",
   "status": "proved",
   "theorems": [
    "Verif.Sfm.C17_normalize",
    "Verif.Sfm.C17_robust",
    "Verif.Sfm.C17_total",
    "Verif.Sfm.C17_unit"
   ],
   "note": "normalizeReconstruction is lib.rs 2241-2283 in exact arithmetic. C17_normalize is the normal form, C17_robust keeps robustness, C17_total says it never panics, C17_unit that the mean distance becomes one if the triangulator follows this motion (a hypothesis on the configured triangulator; ExGeo shows it is met by one that is exact). A mean that is not a number is the none of the model and leaves the reconstruction as it is."
  },
  {
   "property": "C18",
   "status": "proved",
   "theorems": [
    "Verif.Sfm.C18_generated_constraints"
   ],
   "note": "For every reachable state."
  },
  {
   "property": "C19",
   "status": "proved",
   "theorems": [
    "Verif.Sfm.C19_vertices",
    "Verif.Sfm.C19_faces",
    "Verif.Sfm.C19_false",
    "Verif.Sfm.C19_camera",
    "Verif.Sfm.C19_export"
   ],
   "note": "Vertices, faces, the place of the pyramids and totality. C19_false shows that the bound 2^31 is needed: as i32 wraps and makes negative indices. The PLY writer itself (ply-rs) and the file system are trusted; a camera without landmarks at a finite distance has corners that are not numbers in the code and is modelled with focal length zero."
  },
  {
   "property": "C20",
   "status": "proved",
   "theorems": [
    "Verif.Sfm.C20_feed_positions",
    "Verif.Sfm.C20_numbers_never_change"
   ],
   "note": "For every reachable state and every continuation."
  },
  {
   "property": "C21",
   "status": "partial",
   "theorems": [
    "Verif.Akaze.C21_permutation_partial",
    "Verif.Akaze.C21_one_step",
    "Verif.Akaze.C21_short_time"
   ],
   "note": "Proved for every step count except one: the reordered list is a permutation of the plain one (the search over residues modulo the next prime ends and hits each index once). For exactly one step the code computes 0 - 1 (panic with overflow checks, endless loop without): C21_one_step, reached for any time between 0.01 and 0.125 with the limit 0.25 that the scale space uses (C21_short_time)."
  },
  {
   "property": "C22",
   "status": "partial",
   "theorems": [
    "Verif.Akaze.C22_total_time_partial",
    "Verif.Akaze.C22_steps_positive",
    "Verif.Akaze.C22_least_steps",
    "Verif.Akaze.C22_some_step",
    "Verif.Akaze.C22_tiny_time"
   ],
   "note": "Exact sum of the steps by the roots of the polynomial for sin((2n+1)x)/sin x, for both orders; steps positive, number of steps least. False for times below about 3.3e-9 tau_max, where no step is returned (C22_some_step, C22_tiny_time). Exact real arithmetic."
  },
  {
   "property": "C23",
   "status": "partial",
   "theorems": [
    "Verif.Akaze.C23_levels",
    "Verif.Akaze.C23_increasing",
    "Verif.Akaze.C23_allocates",
    "Verif.Akaze.C23_close_levels",
    "Verif.Akaze.C23_default",
    "Verif.Akaze.C23_many_sublevels",
    "Verif.Akaze.C23_sizes",
    "Verif.Akaze.C23_total_partial",
    "Verif.Akaze.C23_small_image",
    "Verif.Akaze.C23_flat_image"
   ],
   "note": "Levels, scales and sizes are characterised exactly for every image size and configuration with at least one sublevel; allocation is total when the first cycle time needs two steps (always for the default settings). False as a claim about all configurations and sizes: images with a side below 40 panic (C23_small_image), twelve or more sublevels make allocation fail (C23_many_sublevels), a flat image of at least 80 pixels per side gives 0/0 (C23_flat_image). Exact real arithmetic."
  },
  {
   "property": "C24",
   "status": "proved",
   "theorems": [
    "Verif.Akaze.C24_correlation",
    "Verif.Akaze.C24_fails",
    "Verif.Akaze.C24_constant"
   ],
   "note": "For every kernel of odd size and every image, both passes equal clamped correlation with the kernel; exact conditions for panics. Exact arithmetic; the SIMD lanes are modelled."
  },
  {
   "property": "C25",
   "status": "partial",
   "theorems": [
    "Verif.Akaze.C25_size",
    "Verif.Akaze.C25_mean_partial",
    "Verif.Akaze.C25_inner",
    "Verif.Akaze.C25_odd_height_ignores",
    "Verif.Akaze.C25_odd_width_ignores",
    "Verif.Akaze.C25_range"
   ],
   "note": "Size and block means for even sides and for every inner pixel; for odd sides the last row or column is ignored or miscounted (C25_odd_height_ignores, C25_odd_width_ignores)."
  },
  {
   "property": "C26",
   "status": "proved",
   "theorems": [
    "Verif.Akaze.C26_step",
    "Verif.Akaze.C26_steps",
    "Verif.Akaze.C26_fails",
    "Verif.Akaze.C26_flat"
   ],
   "note": "Exact arithmetic; rounding of f32 sums is not modelled."
  },
  {
   "property": "C27",
   "status": "proved",
   "theorems": [
    "Verif.Akaze.C27_maximum",
    "Verif.Akaze.C27_large_step",
    "Verif.Akaze.C27_conductivity"
   ],
   "note": "For steps up to a quarter; C27_large_step shows that the limit is needed. C27_conductivity shows that the conductivities computed by the code meet the hypothesis."
  },
  {
   "property": "C28",
   "status": "partial",
   "theorems": [
    "Verif.Akaze.C28_percentile_partial",
    "Verif.Akaze.C28_positive",
    "Verif.Akaze.C28_image",
    "Verif.Akaze.C28_small",
    "Verif.Akaze.C28_flat",
    "Verif.Akaze.C28_zero_factor"
   ],
   "note": "Total, in range, at most the largest gradient and a percentile to within one bin. Positivity holds exactly if the fraction amounts to one pixel (C28_positive) and fails otherwise (C28_zero_factor, C28_flat), which makes the conductivities NaN. Panics below 3x3 (C28_small)."
  },
  {
   "property": "C29",
   "status": "proved",
   "theorems": [
    "Verif.Akaze.C29_total",
    "Verif.Akaze.C29_sound",
    "Verif.Akaze.C29_neighbourhood"
   ],
   "note": "Every returned keypoint is a pixel of its level (FoundAt: strict maximum of 3x3, above the threshold, the neighbourhood of radius 10*sqrt 2*sigma inside with a margin), no pixel twice, no panic. Exact arithmetic."
  },
  {
   "property": "C30",
   "status": "partial",
   "theorems": [
    "Verif.Akaze.C30_upper_partial",
    "Verif.Akaze.C30_strongest_partial",
    "Verif.Akaze.C30_false"
   ],
   "note": "False of the code (C30_false): a candidate is only compared with the first close keypoint in the cache and may replace it although a stronger one is close as well. Proved: no later keypoint of the next level is close and at least as strong; every peak stronger than all near it is found."
  },
  {
   "property": "C31",
   "status": "proved",
   "theorems": [
    "Verif.Akaze.C31_descriptor",
    "Verif.Akaze.C31_count",
    "Verif.Akaze.C31_rest",
    "Verif.Akaze.C31_invalid"
   ],
   "note": "Exact arithmetic; sine and cosine exact. For pattern sizes 1 to 3 the grid of cells has another shape: only length, zero rest and absence of panics are proved there (C31_rest)."
  },
  {
   "property": "C32",
   "status": "proved",
   "theorems": [
    "Verif.Akaze.C32_extract"
   ],
   "note": "The sort is any function that permutes the list and orders it by decreasing response; the result is related to the keypoints returned by detection in the same run."
  },
  {
   "property": "C33",
   "status": "proved",
   "theorems": [
    "Verif.Geo.C33_from_homogeneous",
    "Verif.Geo.C33_round_trip",
    "Verif.Geo.C33_infinity"
   ],
   "note": "Exact reals; signed zero is not modelled (w = -0.0 would be negated by the code)."
  },
  {
   "property": "C34",
   "status": "proved",
   "theorems": [
    "Verif.Geo.C34_transform_mul",
    "Verif.Geo.C34_transform_inverse",
    "Verif.Geo.C34_transform_one",
    "Verif.Geo.C34_transform_infinity",
    "Verif.Geo.C34_scale",
    "Verif.Geo.C34_from_camera_poses"
   ],
   "note": "Exact reals. The rigid motions are also shown to be a Group (instance C34_group), which instantiates C15 and C17."
  },
  {
   "property": "C35",
   "status": "partial",
   "theorems": [
    "Verif.Geo.C35_inverse_iff",
    "Verif.Geo.C35_inverse_fails",
    "Verif.Geo.C35_inverse_partial"
   ],
   "note": "False: a witness, and an iff (the inverse is right exactly if the rotation fixes the translation). Partial: translation along the rotation axis."
  },
  {
   "property": "C36",
   "status": "proved",
   "theorems": [
    "Verif.Geo.C36_hat",
    "Verif.Geo.C36_hat_vee",
    "Verif.Geo.C36_bracket",
    "Verif.Geo.C36_exp"
   ],
   "note": "Exponential map in Rodrigues form; the first order approximation used below machine epsilon is not modelled."
  },
  {
   "property": "C37",
   "status": "partial",
   "theorems": [
    "Verif.Geo.C37_pose_jacobian_partial",
    "Verif.Geo.C37_jacobian_last_row_wrong",
    "Verif.Geo.C37_jacobian_input"
   ],
   "note": "False in the last row for the rotation part (witness). Partial: first three rows are derivatives; the input Jacobian is exact."
  },
  {
   "property": "C38",
   "status": "proved",
   "theorems": [
    "Verif.Geo.C38_calibrate_uncalibrate",
    "Verif.Geo.C38_uncalibrate_calibrate"
   ],
   "note": "Exact reals; checked division. Both directions, and the intrinsic matrix as an independent definition of projection."
  },
  {
   "property": "C39",
   "status": "partial",
   "theorems": [
    "Verif.Geo.C39_round_trip_partial",
    "Verif.Geo.C39_principal_point_lost"
   ],
   "note": "False for distortion coefficients outside the exact condition given by C39_round_trip_partial (an iff) and at the principal point (witness)."
  },
  {
   "property": "C40",
   "status": "partial",
   "theorems": [
    "Verif.Geo.C40_centered_partial",
    "Verif.Geo.C40_not_centered",
    "Verif.Geo.C40_pixel_size",
    "Verif.Geo.C40_square_pixels"
   ],
   "note": "False: the principal point is half a pixel off for a pixel grid (witness); partial theorem gives the exact condition."
  },
  {
   "property": "C41",
   "status": "proved",
   "theorems": [
    "Verif.Geo.C41_residual",
    "Verif.Geo.C41_triple_product",
    "Verif.Geo.C41_epipolar_constraint",
    "Verif.Geo.C41_converse"
   ],
   "note": "Exact reals; residual with checked division; also the converse (zero residual means the epipolar plane)."
  },
  {
   "property": "C42",
   "status": "proved",
   "theorems": [
    "Verif.Geo.C42_sound",
    "Verif.Geo.C42_same_matrix",
    "Verif.Geo.C42_complete",
    "Verif.Geo.C42_complete_bearing"
   ],
   "note": "For every singular value decomposition with ordered values (the solver is a parameter); soundness, completeness and both return forms."
  },
  {
   "property": "C43",
   "status": "proved",
   "theorems": [
    "Verif.Geo.C43_recondition_essential",
    "Verif.Geo.C43_recondition_equations",
    "Verif.Geo.C43_recondition_closest",
    "Verif.Geo.C43_recondition_fixes"
   ],
   "note": "For every singular value decomposition; the result is the essential matrix of a pose, is closest in the Frobenius norm, and essential matrices are fixed."
  },
  {
   "property": "C44",
   "status": "proved",
   "theorems": [
    "Verif.Geo.C44_system_finite",
    "Verif.Geo.C44_null_space",
    "Verif.Geo.C44_estimate_sound",
    "Verif.Geo.C44_estimate_unique",
    "Verif.Geo.C44_estimator_complete"
   ],
   "note": "For every correct symmetric eigenvalue solver (a parameter). Exact arithmetic."
  },
  {
   "property": "C45",
   "status": "proved",
   "theorems": [
    "Verif.Geo.C45_determinant_row",
    "Verif.Geo.C45_trace_rows",
    "Verif.Geo.C45_all_rows"
   ],
   "note": "For all null space bases and all points, over any field."
  },
  {
   "property": "C46",
   "status": "partial",
   "theorems": [
    "Verif.Geo.C46_action_eigenvector",
    "Verif.Geo.C46_recovered_partial",
    "Verif.Geo.C46_null_space",
    "Verif.Geo.C46_degenerate_sample",
    "Verif.Geo.C46_degenerate_estimate",
    "Verif.Geo.C46_pipeline_partial"
   ],
   "note": "False: the coefficients are read one row too early, so a true solution is rebuilt only at two points, and degenerate samples give ten zero matrices. The null space and the action matrix are proved right; five matches meeting all hypotheses are given."
  },
  {
   "property": "C47",
   "status": "proved",
   "theorems": [
    "Verif.Geo.P3P.C47_inverse_exists",
    "Verif.Geo.P3P.C47_pose_recovery"
   ],
   "note": "Exact reals. For every unit bearings, depths that fit and non-collinear points; the inverse exists exactly if the points are not collinear."
  },
  {
   "property": "C48",
   "status": "partial",
   "theorems": [
    "Verif.Geo.P3P.C48_roots_partial",
    "Verif.Geo.P3P.C48_no_real_root",
    "Verif.Geo.P3P.C48_zero_root_lost",
    "Verif.Geo.P3P.C48_positive_root"
   ],
   "note": "False for c = 0 with b >= 0 (C48_zero_root_lost: the root 0 is computed as 0/0). Proved in all other cases; a positive root is always returned."
  },
  {
   "property": "C49",
   "status": "partial",
   "theorems": [
    "Verif.Geo.P3P.C49_newton_step",
    "Verif.Geo.P3P.C49_refine_partial",
    "Verif.Geo.P3P.C49_exact_unchanged"
   ],
   "note": "Proved whenever no step divides by zero. With a singular Jacobian the code goes on with infinities or NaN and accepts a NaN residual; C103 has the refinement with floating point values."
  },
  {
   "property": "C50",
   "status": "partial",
   "theorems": [
    "Verif.Geo.C50_exact_partial",
    "Verif.Geo.C50_wide_angle_rejected",
    "Verif.Geo.C50_behind_second_camera"
   ],
   "note": "Proved exactly when the rays meet at no more than a right angle; beyond it both triangulators reject the point (C50_wide_angle_rejected), and the second camera is not checked (C50_behind_second_camera)."
  },
  {
   "property": "C51",
   "status": "partial",
   "theorems": [
    "Verif.Geo.C51_quadratic_form",
    "Verif.Geo.C51_annihilates",
    "Verif.Geo.C51_unique",
    "Verif.Geo.C51_exact",
    "Verif.Geo.C51_too_few",
    "Verif.Geo.C51_dlt_annihilates",
    "Verif.Geo.C51_dlt_unique",
    "Verif.Geo.C51_dlt_exact_partial"
   ],
   "note": "The matrices annihilate exactly the true point and the quadratic form is the sum of squared ray distances, for all inputs. Exact recovery by the eigen and DLT solvers is proved for solvers meeting their specification; for DLT only when its sign test passes."
  },
  {
   "property": "C52",
   "status": "partial",
   "theorems": [
    "Verif.Geo.C52_accepted_iff_partial",
    "Verif.Geo.C52_front_rejected",
    "Verif.Geo.C52_behind_accepted"
   ],
   "note": "False: the test uses the direction from the world origin instead of the camera, so a point in front can be rejected (C52_front_rejected) and one behind accepted (C52_behind_accepted). The exact acceptance condition is proved (C52_accepted_iff_partial)."
  },
  {
   "property": "C53",
   "status": "partial",
   "theorems": [
    "Verif.Geo.C53_loss_one",
    "Verif.Geo.C53_loss_bounded",
    "Verif.Geo.C53_loss_scale",
    "Verif.Geo.C53_loss_zero_iff",
    "Verif.Geo.C53_exact_partial",
    "Verif.Geo.C53_wide_angle",
    "Verif.Geo.C53_loss_is_distance"
   ],
   "note": "Range, scale invariance, the exact zero condition and its meaning as a distance are proved for all inputs. Zero on exact geometry is false for wide angles (C53_wide_angle)."
  },
  {
   "property": "C54",
   "status": "partial",
   "theorems": [
    "Verif.Geo.C54_never_found",
    "Verif.Geo.C54_found_partial",
    "Verif.Geo.C54_mirror_image",
    "Verif.Geo.C54_gradients_vanish"
   ],
   "note": "False: for consistent configurations the triangulation returns nothing (C54_never_found); the point is found only mirrored (C54_mirror_image, C54_found_partial)."
  },
  {
   "property": "C55",
   "status": "partial",
   "theorems": [
    "Verif.Geo.C55_single_exact_partial",
    "Verif.Geo.C55_single_l1_stops",
    "Verif.Geo.C55_single_l2_stops",
    "Verif.Geo.C55_single_l1_number",
    "Verif.Geo.C55_l1_infinity",
    "Verif.Geo.C55_three_exact",
    "Verif.Geo.C55_nothing_to_do",
    "Verif.Geo.C55_single_moves",
    "Verif.Geo.C55_three_moves",
    "Verif.Geo.C55_three_l2_stops",
    "Verif.Geo.C55_three_l1_number"
   ],
   "note": "The loop is proved to stop exactly at the first stall of fifty steps or after the given number; exact poses are kept, rigid poses stay rigid. False only for the first single-view optimiser when all landmarks are at infinity (C55_l1_infinity; C55_single_l1_number gives the exact condition)."
  },
  {
   "property": "C56",
   "status": "proved",
   "theorems": [
    "Verif.Geo.C56_point_gradient",
    "Verif.Geo.C56_exact_point_kept",
    "Verif.Geo.C56_triangulator_keeps"
   ],
   "note": "For all rays and points; also for the iterative triangulator with any number of iterations."
  },
  {
   "property": "C57",
   "status": "partial",
   "theorems": [
    "Verif.Bicubic.C57_reads",
    "Verif.Bicubic.C57_default_partial",
    "Verif.Bicubic.C57_false",
    "Verif.Bicubic.C57_numbers",
    "Verif.Bicubic.C57_infinite",
    "Verif.Bicubic.C57_nan_column",
    "Verif.Bicubic.C57_nan_white",
    "Verif.Bicubic.C57_nan_row",
    "Verif.Bicubic.C57_nan_reads_false"
   ],
   "note": "C57_reads: every read is inside, for every coordinate that is a number and every size. The second half is false: C57_false has a 4 by 4 image whose neighbourhood is inside and which gets the default, because right >= width rejects one column and row too many; C57_default_partial says exactly when the default is taken. C57_infinite: infinite coordinates give the default. NaN coordinates pass all comparisons: C57_nan_row and C57_nan_white show that the colour becomes white, C57_nan_reads_false that an image with one column is read behind its last pixel; with two columns or more all reads stay in the buffer (C57_nan_column)."
  },
  {
   "property": "C58",
   "status": "proved",
   "theorems": [
    "Verif.Bicubic.C58_float",
    "Verif.Bicubic.C58_quadratic",
    "Verif.Bicubic.C58_range",
    "Verif.Bicubic.C58_pixel",
    "Verif.Bicubic.C58_constant",
    "Verif.Bicubic.C58_colour",
    "Verif.Bicubic.C58_ramp"
   ],
   "note": "The model is bicubic.rs in exact arithmetic with the truncating and clamping cast of the pixel type after each blend. C58_float and C58_quadratic for float pixels, C58_range, C58_pixel, C58_constant for all, C58_colour and C58_ramp bound the loss with u8. The statement that u8 ramps are reproduced exactly is false of the code since the cast truncates. f32 rounding is not modelled."
  },
  {
   "property": "C59",
   "status": "proved",
   "theorems": [
    "Verif.Sfm.C59_order",
    "Verif.Sfm.C59_more",
    "Verif.Sfm.C59_robust",
    "Verif.Sfm.C59_merged"
   ],
   "note": "areObservationsRobust is lib.rs 2907-2937. C59_order and C59_more are the claim, C59_robust says what it decides (enough observations, two of them from directions that differ enough), C59_merged is the same for merging two landmarks."
  },
  {
   "property": "C60",
   "status": "proved",
   "theorems": [
    "Verif.Sfm.C60_sanity_check_silent",
    "Verif.Sfm.C60_sanity_check_complete"
   ],
   "note": "sanity_check is silent in every reachable state, and if it is silent the two tables agree."
  },
  {
   "property": "C61",
   "status": "partial",
   "theorems": [
    "Verif.Sfm.C61_merge_loses_shared_landmark",
    "Verif.Sfm.C61_merge_keeps_shared_landmarks_partial"
   ],
   "note": "False: a witness where the merge loses a landmark shared with the link view. Partial theorem gives the condition under which it is kept."
  },
  {
   "property": "C62",
   "status": "proved",
   "theorems": [
    "Verif.Sfm.C62_record_decision",
    "Verif.Sfm.C62_frame_kept"
   ],
   "note": "For every reachable state; the exact boundary of acceptance and the exact constraints added."
  },
  {
   "property": "C63",
   "status": "partial",
   "theorems": [
    "Verif.Geo.P3P.C63_start_nan",
    "Verif.Geo.P3P.C63_cube_of_one_not_found",
    "Verif.Geo.P3P.C63_two_stationary_points_partial",
    "Verif.Geo.P3P.C63_nan_iff",
    "Verif.Geo.P3P.C63_no_stationary_point_partial",
    "Verif.Geo.P3P.C63_flat_not_found"
   ],
   "note": "False for b^2 = 3c (C63_nan_iff, witness C63_cube_of_one_not_found) and for a start on the wrong side of a nearly flat inflection point (C63_flat_not_found: the result is below -2^150, the root between -2 and -1; the numbers of the witness are exact in f64). Otherwise never NaN; convergence proved in all other cases."
  },
  {
   "property": "C64",
   "status": "partial",
   "theorems": [
    "Verif.Geo.P3P.Tri.C64_depths_complete_partial",
    "Verif.Geo.P3P.C64_pose_found_partial",
    "Verif.Geo.P3P.C64_symmetric_not_found"
   ],
   "note": "False for symmetric configurations (C64_symmetric_not_found: leading coefficient zero). Proved for an exact root of the cubic when no division by zero occurs and the solution is not a double one; from_matrix_eps is a parameter that returns rotations unchanged."
  },
  {
   "property": "C65",
   "status": "partial",
   "theorems": [
    "Verif.Geo.P3P.Tri.C65_depths_sound",
    "Verif.Geo.P3P.Tri.C65_at_most_four",
    "Verif.Geo.P3P.C65_poses_sound_partial",
    "Verif.Geo.P3P.C65_any_root"
   ],
   "note": "Proved for an exact root of the cubic, apart from the symmetric case a13 g = a12 and double solutions; at most four solutions without any hypothesis. C65_any_root: for any root, also an inexact one, the affine map behind each pose sees the three points exactly along their bearings and misses being rigid by the misfit the refinement leaves. Missing: how small this misfit is in terms of the error of the root."
  },
  {
   "property": "C66",
   "status": "proved",
   "theorems": [
    "Verif.Geo.C66_step_descends",
    "Verif.Geo.C66_refinement_never_worse",
    "Verif.Geo.C66_rest_iff_minimum",
    "Verif.Geo.C66_large_rate_diverges"
   ],
   "note": "For all observation lists, rates in [0,2] and iteration counts; divergence witness for larger rates."
  },
  {
   "property": "C67",
   "status": "proved",
   "theorems": [
    "Verif.Geo.C67_l1_optimal",
    "Verif.Geo.C67_linf_optimal",
    "Verif.Geo.C67_l1_result",
    "Verif.Geo.C67_linf_result"
   ],
   "note": "For all poses and bearings where the code makes a correction; exact real arithmetic."
  },
  {
   "property": "C68",
   "status": "proved",
   "theorems": [
    "Verif.Geo.C68_single_view",
    "Verif.Geo.C68_two_views",
    "Verif.Geo.C68_three_views",
    "Verif.Geo.C68_l2_step",
    "Verif.Geo.C68_l1_step"
   ],
   "note": "For all points, bearings and rates in [0,1]; both optimiser steps characterised. Convergence of the whole iteration is not claimed."
  },
  {
   "property": "C69",
   "status": "proved",
   "theorems": [
    "Verif.Akaze.C69_range",
    "Verif.Akaze.C69_constant",
    "Verif.Akaze.C69_gaussian",
    "Verif.Akaze.C69_bad_sigma",
    "Verif.Akaze.C69_ramp",
    "Verif.Akaze.C69_weights"
   ],
   "note": "Exact arithmetic. C69_bad_sigma gives the failing case."
  },
  {
   "property": "C70",
   "status": "partial",
   "theorems": [
    "Verif.Akaze.C70_horizontal",
    "Verif.Akaze.C70_vertical",
    "Verif.Akaze.C70_ramp",
    "Verif.Akaze.C70_ramp_one",
    "Verif.Akaze.C70_zero"
   ],
   "note": "Proved for scales from 2 on; at scale 1 the filter is not normalised and returns 32 times the slope (C70_ramp_one)."
  },
  {
   "property": "C71",
   "status": "proved",
   "theorems": [
    "Verif.Akaze.C71_nonexpansive",
    "Verif.Akaze.C71_variance",
    "Verif.Akaze.C71_step_above_limit"
   ],
   "note": "By the spectral theorem and the factorisation of the step polynomial, for every cycle time up to 10^12 (the bound on the time absorbs the 1e-8 slack with which the code counts its steps)."
  },
  {
   "property": "C72",
   "status": "proved",
   "theorems": [
    "Verif.Akaze.C72_levels",
    "Verif.Akaze.C72_default_times"
   ],
   "note": "For level times up to 10^12 (C72_default_times: always so for the default settings). Exact real arithmetic."
  },
  {
   "property": "C73",
   "status": "partial",
   "theorems": [
    "Verif.Akaze.C73_level_partial",
    "Verif.Akaze.C73_quadratic_partial",
    "Verif.Akaze.C73_scale_one",
    "Verif.Akaze.C73_zero"
   ],
   "note": "Exact for every quadratic image, size and scale of at least 2 (the default settings only use scales 2 to 4), for the filter alone and for a whole level (C73_level_partial: which derivative is which, the rounding of the filter scale). False for scale 1, where the response is 32^4 times too large (C73_scale_one); scale 0 fails (C73_zero). Exact arithmetic."
  },
  {
   "property": "C74",
   "status": "proved",
   "theorems": [
    "Verif.Akaze.C74_refine",
    "Verif.Akaze.C74_quadratic",
    "Verif.Akaze.C74_detect"
   ],
   "note": "For every scale space of matching sizes; exact real arithmetic. Example with a concrete level beside the theorems."
  },
  {
   "property": "C75",
   "status": "partial",
   "theorems": [
    "Verif.Akaze.C75_orientation_partial",
    "Verif.Akaze.C75_false",
    "Verif.Akaze.C75_weights"
   ],
   "note": "Proved: the range, that the direction is dominant when no sampled gradient points exactly right (direction 0), and where the samples are and their weights (C75_weights). C75_false: gradients pointing exactly right are in no sector at all, so the orientation can be that of a much weaker direction. The arc tangent is the exact one; its rounding is not modelled."
  },
  {
   "property": "C76",
   "status": "proved",
   "theorems": [
    "Verif.Akaze.C76_brightness"
   ],
   "note": "Exact arithmetic. Stated for the level images the descriptor is computed from."
  },
  {
   "property": "C77",
   "status": "proved",
   "theorems": [
    "Verif.Akaze.C77_descriptor"
   ],
   "note": "Exact arithmetic (the margin is met with equality excluded by the irrationality of the square root of 2, so rounding could matter). In higher octaves the half-pixel offset of coordinates can push the pattern outside; the theorem states the extra half pixel needed."
  },
  {
   "property": "C78",
   "status": "proved",
   "theorems": [
    "Verif.Akaze.C78_total",
    "Verif.Akaze.C78_default"
   ],
   "note": "The model returns none for a panic and for a division by zero; with contrast factor zero (constant images) the code divides by zero and yields NaN, which is not modelled."
  },
  {
   "property": "C79",
   "status": "proved",
   "theorems": [
    "Verif.Akaze.C79_contrast",
    "Verif.Akaze.C79_brightness"
   ],
   "note": "Whole pipeline from the float image to keypoints and descriptors, in exact real arithmetic; rounding of f32 is not modelled. The sort is any function that commutes with multiplying all responses by a positive number (only needed for contrast)."
  },
  {
   "property": "C80",
   "status": "proved",
   "theorems": [
    "Verif.Sfm.C80_candidates",
    "Verif.Sfm.C80_usable",
    "Verif.Sfm.C80_similar_count",
    "Verif.Sfm.C80_recent_counts_itself"
   ],
   "note": "Full model of the candidate search; the answers of the similarity search are arbitrary distinct live frames. C80_recent_counts_itself records that the setting for recent frames counts the frame itself (n gives n-1), which settings.rs does not say."
  },
  {
   "property": "C81",
   "status": "partial",
   "theorems": [
    "Verif.Sfm.C81_start",
    "Verif.Sfm.C81_enough_features",
    "Verif.Sfm.C81_try_init",
    "Verif.Sfm.C81_pair_given_up",
    "Verif.Sfm.C81_same_as_pair",
    "Verif.Sfm.C81_complete_partial",
    "Verif.Sfm.C81_gives_up_false",
    "Verif.Sfm.C81_no_scales_panics"
   ],
   "note": "Proved in full except the meaning of a failure: C81_start, C81_try_init, C81_enough_features, C81_same_as_pair. The claim that a failure means no two options are good enough is false (C81_gives_up_false: too few matches in different directions for one pair of options ends the whole search); it holds if no such minimum is set (C81_complete_partial). The minimum number of scales must be positive (C81_no_scales_panics). Numeric steps, shuffles and searches are arbitrary functions with the contracts Fair and Searches."
  },
  {
   "property": "C82",
   "status": "proved",
   "theorems": [
    "Verif.Sfm.C82_no_panic",
    "Verif.Sfm.C82_add_frame",
    "Verif.Sfm.C82_tables",
    "Verif.Sfm.C82_nothing_lost",
    "Verif.Sfm.C82_small_minimum_panics"
   ],
   "note": "Every public method that changes the state, add_frame from the extracted features on. Geometry, searches, hash orders and random numbers are parameters with contracts (searches answer with existing features, orders are permutations, pose updates are finite). The fields of VSlam are public: changing them directly is outside the property. C82_small_minimum_panics shows that the condition on the registration minimum is needed."
  },
  {
   "property": "C83",
   "status": "proved",
   "theorems": [
    "Verif.Sfm.C83_three_views"
   ],
   "note": "Invariant over all histories of public calls; uses C81 (a start has three views with 32 features each) and that a bundle adjustment keeps a reconstruction only if three views are updated."
  },
  {
   "property": "C84",
   "status": "partial",
   "theorems": [
    "Verif.Geo.C84_exp_log_partial",
    "Verif.Geo.C84_log_exp_partial",
    "Verif.Geo.C84_log_bounds",
    "Verif.Geo.C84_pose_round_trip_partial",
    "Verif.Geo.C84_vector_round_trip_partial",
    "Verif.Geo.C84_half_turn_lost",
    "Verif.Geo.C84_backwards"
   ],
   "note": "Proved for all rotations that are not half turns and all vectors shorter than a half turn. Missing: half turns, for which it is false (C84_half_turn_lost, C84_backwards). Exact reals; nalgebra has no axis when the skew part is below machine epsilon, the model only when it is zero."
  },
  {
   "property": "C85",
   "status": "proved",
   "theorems": [
    "Verif.Sfm.C85_fixed_point",
    "Verif.Sfm.C85_keeps",
    "Verif.Sfm.C85_world_frame",
    "Verif.Sfm.C85_unit_of_length"
   ],
   "note": "For every reachable state with a reconstruction of three views or more, all in constraints. Exact reals, so the test for finite updates always passes."
  },
  {
   "property": "C86",
   "status": "partial",
   "theorems": [
    "Verif.Sfm.C86_descends_partial",
    "Verif.Sfm.C86_converges_partial",
    "Verif.Sfm.C86_one_constraint",
    "Verif.Sfm.C86_large_rate_diverges",
    "Verif.Sfm.ExGraph.C86_rate_one_diverges",
    "Verif.Sfm.C86_orientations_converge_partial",
    "Verif.Sfm.C86_poses_converge_partial",
    "Verif.Sfm.C86_turns_descend_partial",
    "Verif.Sfm.C86_turns_converge_partial"
   ],
   "note": "Proved for cameras that have the orientations asked for and rates of at most a half (descent) or a quarter (convergence) over the largest number of constraints of a view; exact factor for a single constraint. Orientations: for cameras and constraints turned about one axis, descent while the squared angles sum up to less than 2 pi^2 (C86_turns_descend_partial) and convergence to the orientations asked for from less than a quarter turn away (C86_turns_converge_partial); about any axes, convergence to orientations as asked for when such orientations are less than a quarter turn away (C86_orientations_converge_partial). Poses: when poses that fulfil all constraints are less than a quarter turn away, both angles and distances vanish from any positions (C86_poses_converge_partial). Missing: that the angles never grow when the axes differ, wrong orientations together with constraints that no poses fulfil, and larger rates, for which it is false (C86_large_rate_diverges, C86_rate_one_diverges)."
  },
  {
   "property": "C87",
   "status": "proved",
   "theorems": [
    "Verif.Sfm.C87_lookups",
    "Verif.Sfm.C87_filter_observations",
    "Verif.Sfm.C87_filter_landmarks",
    "Verif.Sfm.C87_two_views_symmetric",
    "Verif.Sfm.ExFilter.C87_second_pass"
   ],
   "note": "Triangulation and bearings are parameters; the tests and the order in which the loop changes the landmarks are those of the program. C87_lookups shows that no lookup of the tests fails. C87_second_pass: filtering twice is not the same as filtering once, since what is left is judged by other rules."
  },
  {
   "property": "C88",
   "status": "proved",
   "theorems": [
    "Verif.Sfm.C88_no_panic",
    "Verif.Sfm.C88_verified_pose",
    "Verif.Sfm.C88_right_pose"
   ],
   "note": "Consensus, triangulation and bearings are parameters; the single-view optimiser is the modelled one. Exact real arithmetic. C88_no_panic assumes that the consensus returns indices in range."
  },
  {
   "property": "C89",
   "status": "proved",
   "theorems": [
    "Verif.Sfm.C89_no_panic",
    "Verif.Sfm.C89_poses",
    "Verif.Sfm.C89_exact",
    "Verif.Sfm.C89_world_frame",
    "Verif.Sfm.C89_generated"
   ],
   "note": "Real arithmetic. The shuffle is any permutation. If both optimised translations are zero the program divides by zero and goes on with NaN; the model rejects, and the theorem on exact data assumes that the three cameras are not all at one place."
  },
  {
   "property": "C90",
   "status": "partial",
   "theorems": [
    "Verif.Sfm.C90_true_partial",
    "Verif.Sfm.C90_motion_partial",
    "Verif.Sfm.C90_points_partial",
    "Verif.Sfm.C90_units",
    "Verif.Sfm.ExExact.C90_units_false"
   ],
   "note": "Proved by induction over all calls for exact pictures, with right matches and poses from outside and the numeric steps of the program (constraint optimisation, graph optimisation, normalisation). Missing: mergers of reconstructions with different units of length, for which the claim is false of the code (C90_units, C90_units_false): the change of coordinates has no scale."
  },
  {
   "property": "C91",
   "status": "partial",
   "theorems": [
    "Verif.Geo.C91_world_residual",
    "Verif.Geo.C91_world_exact",
    "Verif.Geo.C91_camera_range",
    "Verif.Geo.C91_camera_sound",
    "Verif.Geo.C91_camera_exact",
    "Verif.Geo.C91_camera_far_partial",
    "Verif.Geo.C91_camera_far_worst",
    "Verif.Geo.C91_to_camera",
    "Verif.Geo.C91_to_camera_exact_partial",
    "Verif.Geo.C91_reprojection",
    "Verif.Geo.C91_reprojection_exact",
    "Verif.Geo.C91_reprojection_zero"
   ],
   "note": "All parts proved for all poses and all correct solvers, except matches with parallel bearings (points at infinity): there the residual of the true pose is 0 or 2 depending on the sign of the eigenvector, so the claim is false (C91_camera_far_worst). The default triangulation methods inherit the rejection of rays more than a right angle apart (C52). Exact arithmetic; solver and triangulator are parameters."
  },
  {
   "property": "C92",
   "status": "partial",
   "theorems": [
    "Verif.Sfm.C92_true_start",
    "Verif.Sfm.C92_true_reconstruction",
    "Verif.Sfm.C92_accurate",
    "Verif.Sfm.C92_outliers",
    "Verif.Sfm.C92_found_partial",
    "Verif.Sfm.C92_triangulators",
    "Verif.Sfm.ExStart.C92_unit_matters_false"
   ],
   "note": "The first half is proved in full (C92_true_start, C92_true_reconstruction). C92_found_partial needs enough common matches that pass the first test with the motions in their different units; that the units do not matter is false (C92_unit_matters_false). Cameras that see common points more than 90 degrees apart are excluded in C92_found_partial, because the triangulators reject such points (C52). Exact arithmetic; consensus, neighbour search, shuffles and sort are parameters."
  },
  {
   "property": "C93",
   "status": "partial",
   "theorems": [
    "Verif.Sfm.C93_true_partial",
    "Verif.Sfm.C93_motion_partial",
    "Verif.Sfm.C93_points_partial",
    "Verif.Sfm.C93_placed_partial",
    "Verif.Sfm.C93_triangulators",
    "Verif.Sfm.C93_found_partial"
   ],
   "note": "Nothing is assumed about poses, points, landmarks or constraints. Left out: a new frame found in two reconstructions at once, because the program merges them without regard to their units of length (C90_units_false); mergers requested by the caller need equal units. Frames looking at a common point along the same line are excluded. Consensus and descriptor search are parameters that must be exact. C93_found_partial excludes cameras turned more than 90 degrees from the direction in which the origin sees a point, because the triangulators reject such points (C52). Exact arithmetic."
  },
  {
   "property": "C94",
   "status": "partial",
   "theorems": [
    "Verif.Sfm.C94_loss",
    "Verif.Sfm.C94_pair",
    "Verif.Sfm.C94_exact",
    "Verif.Sfm.C94_kept",
    "Verif.Sfm.C94_exact_wins",
    "Verif.Sfm.C94_best_false"
   ],
   "note": "False as documented in the code (\"figure out which observation is closer to the point\"): each loss refers to the point of its own landmark, not to the merged one. C94_best_false: both landmarks are exact, the losses tie, the wrong observation is kept and the merged landmark shows no point although with the other observation it would show one exactly. A loss that is not a number (point at the centre of a camera) is ordered by its sign bit: the parameter high covers both cases. Exact arithmetic; the triangulator is a parameter."
  },
  {
   "property": "C95",
   "status": "proved",
   "theorems": [
    "Verif.Sfm.C95_rigid",
    "Verif.Sfm.C95_motion",
    "Verif.Sfm.C95_returns",
    "Verif.Sfm.C95_pose_data"
   ],
   "note": "Exact arithmetic: that the program renormalises its rotations against rounding is not modelled. The poses returned by the two consensus algorithms are assumed to be rigid (C42, C47), and so is a transformation passed by the caller. Poses that are not numbers are not modelled (see C89)."
  },
  {
   "property": "C96",
   "status": "partial",
   "theorems": [
    "Verif.Akaze.C96_values_partial",
    "Verif.Akaze.C96_depth",
    "Verif.Akaze.C96_same_features",
    "Verif.Akaze.C96_float",
    "Verif.Akaze.C96_range_false"
   ],
   "note": "The conversion of coloured pictures to gray and the luminance of floating point pictures (image crate) are parameters. C96_range_false: the documentation promises values between 0 and 1, but a gray picture with floating point values is taken over as it is (C96_float)."
  },
  {
   "property": "C97",
   "status": "proved",
   "theorems": [
    "Verif.Sfm.C97_features",
    "Verif.Sfm.C97_strongest",
    "Verif.Sfm.C97_total",
    "Verif.Sfm.C97_bearings",
    "Verif.Sfm.C97_state"
   ],
   "note": "Exact arithmetic. The sort is any sort by response. A camera with negative distortion may give a bearing that is not a number (C39). The contrast factor must not be zero (C28, C78)."
  },
  {
   "property": "C98",
   "status": "partial",
   "theorems": [
    "Verif.Akaze.C98_transposed_scales",
    "Verif.Akaze.C98_transposed_partial",
    "Verif.Akaze.C98_transposed_places",
    "Verif.Akaze.C98_levels_strongest",
    "Verif.Akaze.C98_transposed_strongest",
    "Verif.Akaze.C98_transposed_border_false",
    "Verif.Akaze.C98_mirrored_scales",
    "Verif.Akaze.C98_mirrored_partial",
    "Verif.Akaze.C98_mirrored_places",
    "Verif.Akaze.C98_mirrored_odd_false",
    "Verif.Akaze.C98_levels_refined",
    "Verif.Akaze.C98_transposed_refined",
    "Verif.Akaze.C98_transposed_gradients",
    "Verif.Akaze.C98_transposed_detected",
    "Verif.Akaze.C98_mirrored_levels_refined",
    "Verif.Akaze.C98_mirrored_refined",
    "Verif.Akaze.C98_mirrored_detected",
    "Verif.Akaze.C98_orientation_false",
    "Verif.Akaze.C98_mirrored_survivors_false",
    "Verif.Akaze.C98_transposed_survivors_false"
   ],
   "note": "Exact arithmetic. C98_transposed_border_false: the responses at the border differ, because the mixed derivative is taken in a fixed order; C98_transposed_partial gives equality from twice the filter scale on, which covers all keypoints. C98_mirrored_odd_false: halving a picture of odd width does not commute with mirroring, so mirroring needs the divisibility. Positions after refinement are covered (C98_transposed_refined, C98_mirrored_refined, and _detected for keypoints that are strongest). Orientations are not turned over (C98_orientation_false), although the gradients they are computed from are (C98_transposed_gradients). Which of several near keypoints survives depends on the direction of the search, so equality of all keypoints is false (C98_mirrored_survivors_false, C98_transposed_survivors_false)."
  },
  {
   "property": "C99",
   "status": "proved",
   "theorems": [
    "Verif.Par.C99_schedules",
    "Verif.Par.C99_ends",
    "Verif.Akaze.C99_response",
    "Verif.Akaze.C99_filter",
    "Verif.Akaze.C99_scales",
    "Verif.Akaze.C99_extract"
   ],
   "note": "Closures of a join are sequences of atomic actions on the memory they share, interleaved in any way; that each closure is atomic is what safe Rust guarantees (closures of a join cannot borrow what another one writes). The pool of threads itself is rayon's contract. Exact arithmetic."
  },
  {
   "property": "C100",
   "status": "partial",
   "theorems": [
    "Verif.Sfm.C100_wide",
    "Verif.Sfm.C100_removed_partial",
    "Verif.Sfm.C100_few_false"
   ],
   "note": "C100_few_false: the question without a view does not look at the minimum number of observations, so a landmark can be robust without a view although it is neither robust before nor after removing the view. C100_removed_partial: agreement, with the same triangulated point, when enough observations are left, and in general up to that condition. The triangulator is assumed not to depend on the order of observations."
  },
  {
   "property": "C101",
   "status": "proved",
   "theorems": [
    "Verif.Sfm.C101_session",
    "Verif.Sfm.C101_sessions",
    "Verif.Sfm.C101_once",
    "Verif.Sfm.C101_works",
    "Verif.Sfm.C101_cameras"
   ],
   "note": "Pictures can be opened; the data file is read back as written (bincode, file system and command line are not modelled). Over several runs a reconstruction is normalised once per run, as the example shows. Exact arithmetic in normalising and exporting."
  },
  {
   "property": "C102",
   "status": "proved",
   "theorems": [
    "Verif.Akaze.C102_default",
    "Verif.Akaze.C102_total",
    "Verif.Akaze.C102_unrounded"
   ],
   "note": "The assumptions about floating point numbers are those of IEEE 754 (structure Ieee, met by the 24-bit numbers of the examples), powf(2, n) exact for n up to 20 and, for the default settings, accurate to a thousandth. Fused multiplications and sums of several terms are modelled as separate operations in a fixed order; nothing about the proof depends on their values. The width and height are below 2^22; allocation does not fail. C102_unrounded: without rounding the result is that of the model over the real numbers, if that one succeeds (it fails on flat pictures, where the contrast factor is zero and the code computes with NaN)."
  },
  {
   "property": "C103",
   "status": "proved",
   "theorems": [
    "Verif.Geo.P3P.C103_total",
    "Verif.Geo.P3P.C103_too_few",
    "Verif.Geo.P3P.C103_not_a_number",
    "Verif.Geo.P3P.C103_nan_coordinate",
    "Verif.Geo.P3P.C103_depths",
    "Verif.Geo.P3P.C103_refine",
    "Verif.Geo.P3P.C103_refine_done",
    "Verif.Geo.P3P.C103_refine_gives_nan",
    "Verif.Geo.P3P.C103_unrounded"
   ],
   "note": "Assumptions about floating point numbers as in C102 (structure Ieee). nalgebra's try_inverse and Rotation3::from_matrix_eps are parameters. The claim about the refinement allows NaN, because the code accepts it: C103_refine_gives_nan."
  },
  {
   "property": "C104",
   "status": "partial",
   "theorems": [
    "Verif.Geo.C104_nearest",
    "Verif.Geo.C104_returned",
    "Verif.Geo.C104_too_few",
    "Verif.Geo.C104_exact_partial",
    "Verif.Geo.C104_exact_false"
   ],
   "note": "Exactness holds for equal distances only (C104_exact_partial); in general it is false of the code (C104_exact_false), as its documentation suggests. Exact arithmetic."
  },
  {
   "property": "C105",
   "status": "proved",
   "theorems": [
    "Verif.Geo.Rounded.C105_finite_relative",
    "Verif.Geo.Rounded.C105_finite_observations",
    "Verif.Geo.Rounded.C105_not_a_number",
    "Verif.Geo.Rounded.C105_mean_not_a_number",
    "Verif.Geo.Rounded.C105_loss",
    "Verif.Geo.Rounded.C105_loss_not_a_number",
    "Verif.Geo.Rounded.C105_gradients",
    "Verif.Geo.Rounded.C105_sine_not_finite",
    "Verif.Geo.Rounded.C105_unrounded_angularL1",
    "Verif.Geo.Rounded.C105_unrounded_angularLInf",
    "Verif.Geo.Rounded.C105_unrounded_loss",
    "Verif.Geo.Rounded.C105_unrounded_gradients",
    "Verif.Geo.Rounded.C105_unrounded_pose_gradient",
    "Verif.Geo.Rounded.C105_unrounded_mean",
    "Verif.Geo.Rounded.C105_loss_infinite"
   ],
   "note": "Floating point arithmetic through the rules of `Ieee` and `IeeeBits` (sign of zero and of NaN unspecified). Eigenvalue and singular value solvers are parameters. Without rounding equal to the exact models of C50, C53, C54, C67, C68, C104 (C105_unrounded_...)."
  },
  {
   "property": "C106",
   "status": "proved",
   "theorems": [
    "Verif.Geo.Rounded.C106_k1_round_trip",
    "Verif.Geo.Rounded.C106_calibrate",
    "Verif.Geo.Rounded.C106_round_trip",
    "Verif.Geo.Rounded.C106_behind",
    "Verif.Geo.Rounded.C106_sideways",
    "Verif.Geo.Rounded.C106_centre",
    "Verif.Geo.Rounded.C106_k1_centre",
    "Verif.Geo.Rounded.C106_k1_zero",
    "Verif.Geo.Rounded.C106_unrounded_calibrate",
    "Verif.Geo.Rounded.C106_unrounded_uncalibrate"
   ],
   "note": "Rounding through the rules of `Ieee` and the bounds of `Accurate` (relative error u, absolute error of underflow, range). 0/0 = NaN is a hypothesis of the theorems about NaN (`ZeroOverZero`). The sums of nalgebra are taken from the first to the last term. Without rounding the model is that of C38 (C106_unrounded_...). C106_k1_round_trip needs a pixel at least 1024 u K b from the centre and a distortion of at least 2048 u and at most 1/8."
  },
  {
   "property": "C107",
   "status": "proved",
   "theorems": [
    "Verif.Geo.C107_rotations",
    "Verif.Geo.C107_one_of_four",
    "Verif.Geo.C107_inliers",
    "Verif.Geo.C107_eight_point"
   ],
   "note": "Exact arithmetic. The decompositions are parameters with a specification (IsSVD, IsSymEigen, IsEigen4). A point at the same distance from both cameras has opposite bearings under the wrong rotation; the residual is 1 there too."
  },
  {
   "property": "C108",
   "status": "proved",
   "theorems": [
    "Verif.Geo.Rounded.C108_nan_landmarks_single",
    "Verif.Geo.Rounded.C108_nan_landmarks_three",
    "Verif.Geo.Rounded.C108_all_nan_single_l2",
    "Verif.Geo.Rounded.C108_all_nan_three_l2",
    "Verif.Geo.Rounded.C108_all_nan_adaptive",
    "Verif.Geo.Rounded.C108_all_nan_single_l1",
    "Verif.Geo.Rounded.C108_all_nan_three_l1",
    "Verif.Geo.Rounded.C108_bad_pose_single",
    "Verif.Geo.Rounded.C108_bad_pose_three",
    "Verif.Geo.Rounded.C108_points_at_infinity",
    "Verif.Geo.Rounded.C108_unrounded_single_l1",
    "Verif.Geo.Rounded.C108_unrounded_single_l2",
    "Verif.Geo.Rounded.C108_unrounded_three_l1",
    "Verif.Geo.Rounded.C108_unrounded_three_l2",
    "Verif.Geo.Rounded.C108_unrounded_adaptive"
   ],
   "note": "Values are compared up to the sign of zeros. A gradient that overflows is not excluded: it can make a pose NaN. For the L1 optimisers with only NaN landmarks the weights are assumed to be positive and at most 2^24, and 0/0 to be NaN."
  },
  {
   "property": "C109",
   "status": "proved",
   "theorems": [
    "Verif.Geo.Rounded.C109_world",
    "Verif.Geo.Rounded.C109_camera",
    "Verif.Geo.Rounded.C109_essential",
    "Verif.Geo.Rounded.C109_two_views",
    "Verif.Geo.Rounded.C109_angle",
    "Verif.Geo.Rounded.C109_three_views",
    "Verif.Geo.Rounded.C109_consistent",
    "Verif.Geo.Rounded.C109_robust",
    "Verif.Geo.Rounded.C109_filter_keeps",
    "Verif.Geo.Rounded.C109_filter_mean",
    "Verif.Geo.Rounded.C109_infinite",
    "Verif.Geo.Rounded.C109_unrounded_world",
    "Verif.Geo.Rounded.C109_unrounded_camera",
    "Verif.Geo.Rounded.C109_unrounded_essential",
    "Verif.Geo.Rounded.C109_unrounded_two_views",
    "Verif.Geo.Rounded.C109_unrounded_angle",
    "Verif.Geo.Rounded.C109_unrounded_distance",
    "Verif.Geo.Rounded.C109_unrounded_three_views",
    "Verif.Geo.Rounded.C109_unrounded_consistent",
    "Verif.Geo.Rounded.C109_unrounded_robust",
    "Verif.Geo.Rounded.C109_unrounded_filter"
   ],
   "note": "Sample consensus is taken to count a match as an inlier if its residual is less than the threshold. Bearings that are infinite without NaN are not covered: such a bearing can be an inlier of a world pose (C109_infinite). That the filter keeps NaN is shown by C109_filter_keeps; with the mean-mean triangulator it cannot happen (C109_filter_mean)."
  },
  {
   "property": "C110",
   "status": "proved",
   "theorems": [
    "Verif.Geo.Rounded.C110_no_pose",
    "Verif.Geo.Rounded.C110_finite_step",
    "Verif.Geo.Rounded.C110_round",
    "Verif.Geo.Rounded.C110_normalize",
    "Verif.Geo.Rounded.C110_normalize_finite",
    "Verif.Geo.Rounded.C110_scale",
    "Verif.Geo.Rounded.C110_median",
    "Verif.Geo.Rounded.C110_unrounded_pose",
    "Verif.Geo.Rounded.C110_unrounded_mean",
    "Verif.Geo.Rounded.C110_unrounded_normalize",
    "Verif.Geo.Rounded.C110_unrounded_recon",
    "Verif.Geo.Rounded.C110_unrounded_scale"
   ],
   "note": "That `is_normal` holds only for finite numbers that are not zero is a hypothesis; so are that infinity divided by zero and zero divided by zero are not numbers (for the relative scales). The new pose itself can overflow in its last product; then the view is removed in the next round."
  },
  {
   "property": "C111",
   "status": "proved",
   "theorems": [
    "Verif.Geo.Rounded.C111_world",
    "Verif.Geo.Rounded.C111_distance",
    "Verif.Geo.Rounded.C111_inlier",
    "Verif.Geo.Rounded.C111_kept",
    "Verif.Geo.Rounded.C111_consistent",
    "Verif.Geo.Rounded.C111_essential",
    "Verif.Geo.Rounded.C111_loss",
    "Verif.Geo.Rounded.C111_two_views",
    "Verif.Geo.Rounded.C111_robust",
    "Verif.Geo.Rounded.C111_three_views"
   ],
   "note": "The exact quantities are those of worldResidual, essentialResidual, epipolarLoss and cosineDistance, which C109_unrounded_* ties to the same code. Points at infinity (w = 0, where the sign of zero decides) and numbers so small or large that squares leave the range of the type are excluded by the hypotheses. For the residual of a relative pose, which needs an eigenvalue solver, there is no bound. The point of a landmark is whatever the triangulator returns; its own error is not bounded here."
  },
  {
   "property": "C112",
   "status": "proved",
   "theorems": [
    "Verif.Geo.Rounded.C112_product",
    "Verif.Geo.Rounded.C112_inverse",
    "Verif.Geo.Rounded.C112_identity",
    "Verif.Geo.Rounded.C112_steps",
    "Verif.Geo.Rounded.C112_rotations",
    "Verif.Geo.Rounded.C112_exp",
    "Verif.Geo.Rounded.C112_single_view",
    "Verif.Geo.Rounded.C112_three_views",
    "Verif.Geo.Rounded.C112_optimise"
   ],
   "note": "In the theorems on the optimisers (C112_single_view, C112_three_views, C112_optimise) the accuracy e of the exponential is a hypothesis on every rotation vector; C112_exp proves it, with e = 560 u, for vectors whose square neither underflows nor overflows. For the graph optimiser that includes every vector above the code's own limit of machine epsilon for the squared angle; below it the code calls nalgebra's iterative rotation_small, which is a parameter. Sine and cosine are assumed accurate to 2 u (libm). nalgebra's rotation matrices of an isometry are modelled as matrices, as IsometryMatrix3 stores them."
  }
 ]
}