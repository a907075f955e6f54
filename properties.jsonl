{"id": "C01", "title": "Views and landmarks always agree", "statement": "After any sequence of VSlamData operations made with arguments that meet their documented preconditions, in every reconstruction, for every live view V and feature F, V lists exactly one landmark for F, that landmark exists, and that landmark lists F as the observation from V; conversely every observation (V,F) stored in a landmark names a live view V whose feature F is assigned to that landmark.", "quantifier": "every history of feed/frame/reconstruction/view/landmark operations, of any length, on any number of feeds, frames, reconstructions and views", "why_tests_cant": "Two tables are updated by hand in eleven different operations; a test runs a handful of histories, while the desynchronising one can be arbitrarily long.", "anchors": ["cv-sfm/src/lib.rs: VSlamData::add_reconstruction, add_view, add_landmark, remove_view, split_observation, merge_landmarks, remove_reconstruction", "cv-sfm/src/lib.rs: VSlam::incorporate_reconstruction, sanity_check"]}
{"id": "C02", "title": "No empty landmark and no doubly observed view", "statement": "In every reachable state every landmark has at least one observation, no landmark holds two features from the same view, and two distinct landmarks never share a (view, feature) observation.", "quantifier": "every history of data operations", "why_tests_cant": "remove_view panics on an empty landmark; whether one can ever arise is a question about all histories.", "anchors": ["cv-sfm/src/lib.rs: Landmark, remove_view, add_reconstruction, split_observation"]}
{"id": "C03", "title": "Frames and views point at each other", "statement": "In every reachable state a frame reports membership (reconstruction R, view V) if and only if R is live, V is a live view of R and V was made from that frame; so a frame is in at most one reconstruction and no view is orphaned.", "quantifier": "every history of data operations including whole-reconstruction removal and merging", "why_tests_cant": "The back pointer is rewritten in add_view, add_reconstruction, incorporate_reconstruction, remove_view and remove_reconstruction; only an invariant over all histories covers every order.", "anchors": ["cv-sfm/src/lib.rs: Frame::view, View::frame, add_view, remove_view, remove_reconstruction, try_merge_reconstructions"]}
{"id": "C04", "title": "Three-view constraints only mention live, distinct views", "statement": "In every reachable state each stored three-view constraint of a reconstruction names three distinct live views of that reconstruction.", "quantifier": "every history of data operations and constraint recording", "why_tests_cant": "A dangling view key panics much later, inside optimisation; the history that creates it may be arbitrarily far from the crash.", "anchors": ["cv-sfm/src/lib.rs: ThreeViewConstraint, record_view_constraints, remove_view, incorporate_reconstruction, regenerate_reconstruction"]}
{"id": "C05", "title": "Data operations never panic when their documented preconditions hold", "statement": "From every reachable state, add_view, add_landmark, remove_view, split_observation, split_landmark, merge of landmarks without a common view, add_reconstruction with one-to-one matches, and remove_reconstruction complete without panicking.", "quantifier": "every reachable state and every argument meeting the precondition", "why_tests_cant": "The panics (slot-map indexing, expect, assert, panic!) depend on global consistency of the tables, which tests only sample.", "anchors": ["cv-sfm/src/lib.rs: VSlamData"]}
{"id": "C06", "title": "Keys are never reused", "statement": "A key handed out for a feed, frame, view, landmark or reconstruction is never handed out again during a history, and once the object is removed the key never resolves again.", "quantifier": "every history", "why_tests_cant": "A clash would need a particular interleaving of removals and insertions.", "anchors": ["cv-sfm/src/lib.rs: DenseSlotMap uses, add_frame, add_view, add_landmark"]}
{"id": "C07", "title": "Removing a view touches nothing else", "statement": "remove_view deletes exactly the observations of that view: each other view keeps all its features, landmarks and co-observing views, landmarks seen only by the removed view disappear, every other landmark keeps all its other observations, and the frame becomes unassigned.", "quantifier": "every reachable state and every view", "why_tests_cant": "A frame condition over the entire state.", "anchors": ["cv-sfm/src/lib.rs: VSlamData::remove_view"]}
{"id": "C08", "title": "Splitting an observation moves exactly one observation", "statement": "split_observation returns true exactly when the landmark has at least two observations; then that observation alone becomes a new landmark with no other observation, and all other landmark assignments are unchanged; if it returns false nothing changes.", "quantifier": "every reachable state, landmark and observing view", "why_tests_cant": "Frame condition plus exact decision over all states.", "anchors": ["cv-sfm/src/lib.rs: VSlamData::split_observation"]}
{"id": "C09", "title": "Merging landmarks keeps the best of duplicate observations", "statement": "merge_landmarks, documented as choosing the best observation when both landmarks are observed by the same view, unites the observations of the two landmarks for any two landmarks of the reconstruction.", "quantifier": "every reachable state and every pair of landmarks", "why_tests_cant": "The documented behaviour on landmarks sharing a view must hold for all pairs; tests only merge the pairs they happen to build.", "anchors": ["cv-sfm/src/lib.rs: VSlamData::merge_landmarks"]}
{"id": "C10", "title": "Deduplicating merge is safe and keeps the better observation", "statement": "merge_landmarks_dedup on two distinct landmarks of a reachable state never panics, never loses a feature observation, keeps the tables consistent, and when it returns a landmark, that landmark carries, for each view that observed both, the observation with the smaller loss, and all the observations of views that observed only one.", "quantifier": "every reachable state, pair of landmarks and loss values", "why_tests_cant": "The outcome depends on the order and number of duplicates and on arbitrary losses.", "anchors": ["cv-sfm/src/lib.rs: VSlam::merge_landmarks_dedup, split_landmark, observation_loss"]}
{"id": "C11", "title": "Incorporating one reconstruction in another preserves it", "statement": "incorporate_reconstruction moves every view of the source with all its features into the destination (a view for which no constraints can be recorded is dropped instead and its frame becomes free again), removes the source, keeps exactly the same co-observations between moved features, joins mapped landmarks to the given destination landmarks, and leaves the tables consistent, provided the landmark map is one-to-one.", "quantifier": "every pair of consistent reconstructions and every one-to-one landmark map", "why_tests_cant": "Global relabelling of arbitrarily large graphs.", "anchors": ["cv-sfm/src/lib.rs: VSlam::incorporate_reconstruction, try_merge_reconstructions"]}
{"id": "C12", "title": "Symmetric matching is a partial bijection", "statement": "The matches returned between two frames use each feature of either frame at most once, and swapping the frames returns the same pairs swapped.", "quantifier": "every pair of frames, every number of features, every nearest-neighbour answer with at least two results", "why_tests_cant": "Downstream code overwrites observations silently when a feature repeats, so it must hold for all descriptor sets.", "anchors": ["cv-sfm/src/lib.rs: matching, symmetric_matching"]}
{"id": "C13", "title": "Progressive registration considers each feature once and terminates", "statement": "Registering a frame against view matches examines consecutive, disjoint feature ranges that start at 0, at least double, never leave the feature array, together cover every feature when registration keeps failing, and stops after a logarithmic number of rounds, for every positive initial feature count.", "quantifier": "every number of features, every initial feature setting and every outcome of the subset registrations", "why_tests_cant": "Termination and coverage for all sizes; includes the zero setting where the loop never ends.", "anchors": ["cv-sfm/src/lib.rs: VSlam::register_frame"]}
{"id": "C14", "title": "Accepted registration matches can be inserted safely", "statement": "For every feature the registration keeps, the proposed landmark or landmark pair is live, no landmark is proposed for two features, and a proposed pair has no observing view in common, so that inserting the view never hits the duplicate-observation assertion.", "quantifier": "every reachable reconstruction, every candidate list and distances", "why_tests_cant": "Relies on an aggregate count over all features of a frame.", "anchors": ["cv-sfm/src/lib.rs: VSlam::register_frame_subset, are_landmarks_sharing_view, VSlamData::add_view"]}
{"id": "C15", "title": "Three-view edges are mutually consistent", "statement": "The six directed edges produced from one three-view constraint cover each ordered pair of its views exactly once, opposite edges are inverse to each other, composing edges around any path gives the direct edge, and if the stored relative poses equal those of the cameras every edge predicts exactly the target camera's pose.", "quantifier": "every constraint and all rigid poses", "why_tests_cant": "Quantifies over a continuous group.", "anchors": ["cv-sfm/src/lib.rs: ThreeViewConstraint::edge_constraints"]}
{"id": "C16", "title": "Pose-graph optimisation never uses a removed view", "statement": "Running the constraint optimisation for any number of iterations never dereferences a view that an earlier iteration removed.", "quantifier": "every reconstruction, any number of iterations, any pattern of views whose update is non-finite", "why_tests_cant": "Needs a particular view to become non-finite at a particular iteration.", "anchors": ["cv-sfm/src/lib.rs: VSlam::apply_constraints, flatten_constraints, compute_momentum_bundle_adjust, apply_bundle_adjust"]}
{"id": "C17", "title": "Normalising preserves relative geometry", "statement": "normalize_reconstruction either leaves a reconstruction whose first view sees no landmark at a usable distance unchanged, or puts the first view at the identity and changes every relative pose between views only by one common positive scale on its translation; a constraint that agreed with the camera poses before agrees after. It never panics on a consistent reconstruction, keeps which observation sets are robust, and makes the mean distance of the landmarks of the first view one if the triangulator follows the motion.", "quantifier": "every reconstruction with at least one view, all rigid poses and all positive scales", "why_tests_cant": "Continuous group, any number of views.", "anchors": ["cv-sfm/src/lib.rs: VSlam::normalize_reconstruction"]}
{"id": "C18", "title": "Generated view constraints are few, distinct and on topic", "statement": "generate_view_constraints for a view returns at most the configured maximum number of constraints, each names the view and two others of the candidate list, all distinct, and no triple is returned twice.", "quantifier": "every view, candidate list, robustness outcome and maximum", "why_tests_cant": "Combinatorial for all candidate counts.", "anchors": ["cv-sfm/src/lib.rs: VSlam::generate_view_constraints, canonical_view_order"]}
{"id": "C19", "title": "Exported meshes are well formed", "statement": "In an exported PLY every face index is a valid vertex index and refers to the five vertices of its own camera, the vertex count is five per camera plus one per point, and points follow in input order. The five vertices of a camera are its centre in the world and the corners of a square one focal length in front of it. Exporting a consistent reconstruction never panics and writes one camera per view and at most one point per landmark.", "quantifier": "every number of points, and of cameras as long as they have at most 2^31 vertices (indices are written as 32-bit numbers); every consistent reconstruction whose frames have all features of their views", "why_tests_cant": "Index arithmetic over all sizes.", "anchors": ["cv-sfm/src/export.rs: export"]}
{"id": "C20", "title": "Frame numbering in a feed is dense and stable", "statement": "In every reachable state the frame stored at position k of a feed reports feed position k and that feed, for every feed and k; numbers never change.", "quantifier": "every history of data operations", "why_tests_cant": "Interleavings of feeds.", "anchors": ["cv-sfm/src/lib.rs: VSlam::add_frame, VSlamData::add_frame, FrameKey/Feed"]}
{"id": "C21", "title": "Reordered diffusion steps are a permutation", "statement": "For every step count n, asking for reordered FED steps terminates without panicking and returns exactly the multiset of unreordered steps.", "quantifier": "every n", "why_tests_cant": "The reordering walks residues modulo a prime; correctness for all n is number theory, and single values of n can fail.", "anchors": ["akaze/src/fed_tau.rs: fed_tau_internal, fed_is_prime_internal"]}
{"id": "C22", "title": "Diffusion steps add up to the requested time", "statement": "The time steps returned for total time T and M cycles sum exactly to T/M (in exact arithmetic), for every T > 0 and maximum step.", "quantifier": "every time, cycle count and tau_max", "why_tests_cant": "A trigonometric identity for every n.", "anchors": ["akaze/src/fed_tau.rs: fed_tau_by_process_time, fed_tau_by_cycle_time"]}
{"id": "C23", "title": "Scale-space levels have the right sizes", "statement": "For every image size and configuration, every allocated evolution of octave o has size floor(w/2^o) x floor(h/2^o), its smaller side is at least 40, evolutions are sorted by octave then sublevel with strictly increasing scale, and successive halvings of the image produce exactly those sizes.", "quantifier": "every width, height, octave and sublevel setting", "why_tests_cant": "All sizes.", "anchors": ["akaze/src/evolution.rs: Akaze::allocate_evolutions", "akaze/src/lib.rs: create_nonlinear_scale_space", "akaze/src/image.rs: GrayFloatImage::half_size"]}
{"id": "C24", "title": "Separable filtering is clamped correlation", "statement": "Filtering an image of any size with kernels of any odd length gives at each pixel the correlation of the kernel with the image extended by repeating its border, and has the size of the input.", "quantifier": "every image size at least one, every odd kernel length, every pixel", "why_tests_cant": "The implementation works in padded, chunked blocks whose edge handling depends on sizes.", "anchors": ["akaze/src/image.rs: horizontal_filter, vertical_filter, separable_filter"]}
{"id": "C25", "title": "Half-sizing averages the pixels it covers", "statement": "half_size yields floor(w/2) x floor(h/2) pixels and every input pixel influences the output (each output pixel is the mean of its block).", "quantifier": "every image with both sides at least two, odd and even", "why_tests_cant": "Odd sizes take separate code paths.", "anchors": ["akaze/src/image.rs: GrayFloatImage::half_size"]}
{"id": "C26", "title": "Diffusion conserves total intensity", "statement": "One explicit diffusion step leaves the sum of all pixel values unchanged, for every conductivity image and step size.", "quantifier": "every image size, image, conductivity and step", "why_tests_cant": "All sizes and values.", "anchors": ["akaze/src/nonlinear_diffusion.rs: calculate_step"]}
{"id": "C27", "title": "Diffusion obeys the maximum principle", "statement": "With conductivities between 0 and 1 and step at most 0.25 every new pixel lies between the minimum and maximum of the old image, hence any number of such steps stays in range.", "quantifier": "every image, conductivity, and sequence of steps", "why_tests_cant": "All images and step sequences.", "anchors": ["akaze/src/nonlinear_diffusion.rs: calculate_step, pm_g2"]}
{"id": "C28", "title": "Contrast factor is a safe percentile", "statement": "For every gradient image with a non-zero gradient, every bin index is in range, the returned contrast factor is positive, at most the largest gradient, and at least the requested fraction of the counted gradients fall in bins below it.", "quantifier": "every gradient image, percentile in [0,1] and bin count", "why_tests_cant": "Boundary bins, flat images and percentiles at the extremes.", "anchors": ["akaze/src/contrast_factor.rs: compute_contrast_factor"]}
{"id": "C29", "title": "Detected keypoints are local maxima inside the image", "statement": "Every candidate the detector returns has a response above the threshold, strictly exceeds its eight neighbours on its level, and lies far enough from the border that the configured neighbourhood is inside the image.", "quantifier": "every response image of any size", "why_tests_cant": "All images and sizes.", "anchors": ["akaze/src/scale_space_extrema.rs: find_scale_space_extrema"]}
{"id": "C30", "title": "Overlapping keypoints on neighbouring scales are suppressed", "statement": "No two returned keypoints of the same or adjacent class lie within the larger scale's size of each other with the weaker one kept.", "quantifier": "every sequence of candidates", "why_tests_cant": "Depends on order of discovery over all candidate sequences.", "anchors": ["akaze/src/scale_space_extrema.rs: find_scale_space_extrema"]}
{"id": "C31", "title": "Descriptor bits are in range and complete", "statement": "For pattern sizes from 4 up and up to 3 channels, bit n of the descriptor of a keypoint says whether the mean of one channel over one cell of the pattern around the keypoint exceeds that over another cell, for the n-th pair of cells; there are 162 bits per channel and the rest of the 512 are zero. There is a descriptor exactly when all samples lie inside the image, and otherwise an error, never a panic. The lengths hold for smaller patterns too.", "quantifier": "every image patch, keypoint and channel count", "why_tests_cant": "All bit positions for all inputs.", "anchors": ["akaze/src/descriptors.rs: get_mldb_descriptor, mldb_binary_comparisons, mldb_fill_values"]}
{"id": "C32", "title": "Keypoints and descriptors correspond", "statement": "The extractor returns equally many keypoints and descriptors, the i-th descriptor is the one computed for the i-th keypoint, keypoints are in non-increasing response order, at most maximum_features of them, they are among those detected, and a detected keypoint is missing only if it came after that many stronger ones or has no descriptor.", "quantifier": "every list of detected keypoints, every maximum and every pattern of failing descriptors", "why_tests_cant": "All failure patterns.", "anchors": ["akaze/src/lib.rs: extract_from_gray_float_image", "akaze/src/descriptors.rs: extract_descriptors"]}
{"id": "C33", "title": "Homogeneous points are normalised", "statement": "Building a projective point from any homogeneous vector with non-zero direction gives a unit bearing and non-negative inverse distance representing the same projective point, and finite points round-trip exactly.", "quantifier": "every homogeneous vector", "why_tests_cant": "Continuum, including negative and zero w.", "anchors": ["cv-core/src/point.rs: Projective::from_homogeneous, point, from_point, bearing"]}
{"id": "C34", "title": "Poses act as a group on points", "statement": "Transforming a point by a product of poses equals transforming in turn, transforming by a pose then its inverse returns the point, points at infinity stay at infinity, and from_camera_poses maps world points so that both cameras see the same camera point, and scaling a pose is a change of unit.", "quantifier": "all rigid poses and all points not at a camera centre", "why_tests_cant": "Continuum.", "anchors": ["cv-core/src/pose.rs: Pose, WorldToWorld::from_camera_poses, CameraToCamera"]}
{"id": "C35", "title": "Inverting a tangent inverts the transformation", "statement": "Se3TangentSpace::inverse gives the tangent whose isometry is the inverse of the original isometry.", "quantifier": "every tangent vector", "why_tests_cant": "A test with zero rotation or zero translation passes although the general case may not.", "anchors": ["cv-core/src/so3.rs: Se3TangentSpace::inverse, isometry"]}
{"id": "C36", "title": "so(3) operations satisfy the Lie algebra laws", "statement": "hat and vee are inverse, hat(a)b is the cross product, the square matrix helper equals hat squared, the bracket is the cross product, bilinear, antisymmetric and satisfies Jacobi; Rodrigues' formula on hat yields a proper rotation.", "quantifier": "all vectors", "why_tests_cant": "Continuum.", "anchors": ["cv-core/src/so3.rs: Skew3"]}
{"id": "C37", "title": "Pose Jacobians are derivatives", "statement": "The Jacobian returned with a pose's transform equals the derivative of the homogeneous output with respect to a left perturbation of the pose.", "quantifier": "all poses, points and perturbations", "why_tests_cant": "Continuum.", "anchors": ["cv-core/src/pose.rs: pose_jacobian_self, pose_jacobian_input"]}
{"id": "C38", "title": "Pinhole calibration round-trips", "statement": "Calibrating a pixel and projecting the bearing back gives the same pixel, and projecting then calibrating a forward bearing gives the same bearing, for all non-zero focal lengths.", "quantifier": "all pixels, all intrinsics with non-zero focal lengths, all forward bearings", "why_tests_cant": "Continuum.", "anchors": ["cv-pinhole/src/lib.rs: CameraIntrinsics::calibrate, uncalibrate"]}
{"id": "C39", "title": "Radial distortion round-trips", "statement": "With radial distortion, projecting the bearing of any pixel returns that pixel.", "quantifier": "all pixels, intrinsics and distortion coefficients", "why_tests_cant": "Includes the principal point, zero distortion and strong distortion.", "anchors": ["cv-pinhole/src/lib.rs: CameraIntrinsicsK1Distortion"]}
{"id": "C40", "title": "Centred intrinsics put the principal point at the image centre", "statement": "intrinsics_centered of a camera specification places the principal point at the centre of the pixel grid.", "quantifier": "all camera specifications", "why_tests_cant": "A numeric test must know the expected value; the claim is for all sizes.", "anchors": ["cv-pinhole/src/lib.rs: CameraSpecification::intrinsics_centered"]}
{"id": "C41", "title": "Essential matrices satisfy the epipolar constraint", "statement": "The essential matrix of a relative pose has zero residual on the bearings of every point in front of both cameras.", "quantifier": "all poses and points", "why_tests_cant": "Continuum.", "anchors": ["cv-pinhole/src/essential.rs: From<CameraToCamera>, residual"]}
{"id": "C42", "title": "Essential decomposition is sound and complete", "statement": "From the essential matrix of any pose with non-zero translation, the returned rotations are proper, the returned translation is a unit vector, and one of the four returned poses is the original with its translation scaled to unit length.", "quantifier": "all poses with non-zero translation and every valid singular value decomposition", "why_tests_cant": "Continuum, non-unique SVD and sign fixes.", "anchors": ["cv-pinhole/src/essential.rs: possible_rotations_unscaled_translation, possible_unscaled_poses"]}
{"id": "C43", "title": "Reconditioning yields a true essential matrix", "statement": "recondition returns a matrix with zero determinant that satisfies the essential (trace) constraint, and leaves true essential matrices unchanged.", "quantifier": "all 3x3 matrices, every valid SVD", "why_tests_cant": "Continuum.", "anchors": ["cv-pinhole/src/essential.rs: EssentialMatrix::recondition"]}
{"id": "C44", "title": "Eight-point rows encode the epipolar constraint", "statement": "The linear system assembled from eight matches has a matrix in its null space exactly when that matrix satisfies the epipolar constraint on all of them.", "quantifier": "all matches with non-zero depth and all matrices", "why_tests_cant": "Index order and normalisation for all values.", "anchors": ["eight-point/src/lib.rs: encode_epipolar_equation, EightPoint::from_matches"]}
{"id": "C45", "title": "Five-point polynomial constraints are exact", "statement": "Evaluated at any (x,y,z), the ten polynomial rows equal the determinant and trace constraints of xE1+yE2+zE3+E4.", "quantifier": "all bases and all x,y,z", "why_tests_cant": "Polynomial identity over 40 coefficients.", "anchors": ["nister-stewenius/src/lib.rs: o1, o2, five_points_polynomial_constraints"]}
{"id": "C46", "title": "Five-point solver returns the true essential matrix", "statement": "Each true solution (x,y,z) is recovered: it is an eigenvector of the action matrix and the essential matrix built from that eigenvector is the true one up to scale.", "quantifier": "all solutions of the constraint system", "why_tests_cant": "Row indices of the eigenvector must match the monomial order.", "anchors": ["nister-stewenius/src/lib.rs: five_points_relative_pose, essentials_from_action_ebasis"]}
{"id": "C47", "title": "P3P pose recovery is exact", "statement": "Given depths satisfying the three distance equations for non-collinear points, the recovered rotation is proper and the pose maps each world point onto its bearing at its depth.", "quantifier": "all triples of points, bearings and depths", "why_tests_cant": "Continuum.", "anchors": ["lambda-twist/src/lib.rs: compute_poses_nordberg"]}
{"id": "C48", "title": "Quadratic root finder returns the roots", "statement": "root2real returns both real roots of r^2 + b r + c whenever the discriminant is non-negative and reports none otherwise.", "quantifier": "all b and c", "why_tests_cant": "Degenerate coefficients.", "anchors": ["lambda-twist/src/lib.rs: root2real"]}
{"id": "C49", "title": "Depth refinement never gets worse", "statement": "gauss_newton_refine_lambda takes exact Newton steps on the three distance equations and returns depths whose residual norm does not exceed the initial one, for any number of iterations.", "quantifier": "all inputs and iteration counts", "why_tests_cant": "Includes singular Jacobians.", "anchors": ["lambda-twist/src/lib.rs: gauss_newton_refine_lambda"]}
{"id": "C50", "title": "Two-view triangulation is exact on exact data", "statement": "For exact bearings of a point in front of both cameras and not on the baseline, the angular triangulators return that point.", "quantifier": "all poses and points", "why_tests_cant": "Continuum.", "anchors": ["cv-geom/src/triangulation.rs: AngularL1Triangulator, AngularLInfinityTriangulator"]}
{"id": "C51", "title": "Linear triangulation systems vanish exactly at the true point", "statement": "The design matrices of the linear triangulators annihilate the true homogeneous point, and the eigen version's quadratic form is the sum of squared distances from the rays.", "quantifier": "all numbers of observations, poses and points", "why_tests_cant": "Any number of views.", "anchors": ["cv-geom/src/triangulation.rs: LinearEigenTriangulator, RelativeDltTriangulator"]}
{"id": "C52", "title": "Triangulated points are in front of every camera", "statement": "The multi-view triangulators return a point only if it is in front of each observing camera, and do not reject a point which is.", "quantifier": "all camera placements", "why_tests_cant": "Depends on the camera centres relative to the world origin.", "anchors": ["cv-geom/src/triangulation.rs: LinearEigenTriangulator, MeanMeanTriangulator"]}
{"id": "C53", "title": "Epipolar loss is a bounded sine distance", "statement": "The epipolar loss always lies in [0,1], is zero for exact forward geometry, does not depend on translation scale, and is 1 for opposite-facing or degenerate input.", "quantifier": "all bearings and translations", "why_tests_cant": "Continuum.", "anchors": ["cv-geom/src/epipolar.rs: loss"]}
{"id": "C54", "title": "Three-view gradients point at the triangulated structure", "statement": "For bearings from a consistent configuration, the triangulation used by the three-view gradient returns the true point in front of the cameras.", "quantifier": "all consistent configurations", "why_tests_cant": "Sign conventions over a continuum.", "anchors": ["cv-geom/src/epipolar.rs: three_view_gradients, two_view_same_space_triangulate_sine_l1"]}
{"id": "C55", "title": "Pose optimisers keep exact solutions", "statement": "The single-view and three-view optimisers perform at most the requested iterations, return the input when there are no landmarks or no iterations, and leave a pose that fits all landmarks exactly unchanged.", "quantifier": "all iteration counts, landmark lists, rates", "why_tests_cant": "All lengths and values.", "anchors": ["cv-optimize/src/single_view_optimizer.rs", "cv-optimize/src/three_view_optimizer.rs"]}
{"id": "C56", "title": "Point gradient projects on the observation ray", "statement": "A step of rate one along the point gradient of one observation puts the point on its ray; the gradient is orthogonal to the ray and zero exactly on it; so the iterative triangulator leaves an exact point unchanged.", "quantifier": "all rays and points", "why_tests_cant": "Continuum.", "anchors": ["cv-geom/src/epipolar.rs: point_gradient", "cv-geom/src/triangulation.rs: SineL1Triangulator"]}
{"id": "C57", "title": "Bicubic sampling never reads outside the image", "statement": "interpolate_bicubic performs only in-range unchecked pixel reads for every finite coordinate and every image size, and falls back to the default only when the 4x4 neighbourhood is not inside the image.", "quantifier": "all image sizes and coordinates", "why_tests_cant": "Uses unchecked access, so any out-of-range case is undefined behaviour.", "anchors": ["cv-sfm/src/bicubic.rs: interpolate_bicubic"]}
{"id": "C58", "title": "Bicubic interpolation interpolates", "statement": "At integer coordinates the sampled value is the pixel, constants are reproduced, and results stay in the range of the pixel type. With float pixels every image that is a quadratic polynomial in each coordinate (so every linear ramp) is reproduced exactly; with u8 pixels, where every blend truncates, linear ramps are reproduced to within two grey levels and an eighth.", "quantifier": "all pixel values and offsets", "why_tests_cant": "Continuum.", "anchors": ["cv-sfm/src/bicubic.rs: blend_cubic"]}
{"id": "C59", "title": "Robustness tests are order independent and monotone", "statement": "Whether a set of observations counts as robust does not depend on their order and adding an observation never makes a robust set non-robust while the number of views is fixed.", "quantifier": "all observation lists", "why_tests_cant": "All orders and sizes.", "anchors": ["cv-sfm/src/lib.rs: VSlam::are_observations_robust"]}
{"id": "C60", "title": "The built-in sanity check is sound and complete", "statement": "sanity_check reports nothing in any state reachable through the API, and whenever it reports nothing, every feature of every view names a stored landmark that lists exactly this feature for this view.", "quantifier": "all reachable states; all states for completeness", "why_tests_cant": "Quantifies over unbounded histories and over every possible corruption.", "anchors": ["cv-sfm/src/lib.rs: VSlam::sanity_check"]}
{"id": "C61", "title": "Merging reconstructions through a shared frame keeps what its features share", "statement": "When try_merge joins two reconstructions, two features of moved views that shared a landmark still share one, including the features of the linking view.", "quantifier": "all pairs of reconstructions, link views and matches", "why_tests_cant": "Quantifies over all observation graphs and match sets.", "anchors": ["cv-sfm/src/lib.rs: VSlam::try_merge, VSlamData::incorporate_reconstruction"]}
{"id": "C62", "title": "A view is kept exactly when it gets enough constraints", "statement": "A view added to a reconstruction is accepted exactly if at least the configured minimum of constraints was generated for it, or one for each other view; then exactly those constraints are appended to the existing ones. Otherwise no constraint is added, the view is removed again and its frame is free.", "quantifier": "all reachable states, frames, settings and geometric outcomes", "why_tests_cant": "Boundary decision over unbounded graphs and settings.", "anchors": ["cv-sfm/src/lib.rs: VSlamData::record_view_constraints, VSlam::incorporate_frame"]}
{"id": "C63", "title": "The cubic root finder converges to a root", "statement": "cube_root returns a real root of r^3 + b r^2 + c r + d up to its stopping tolerance: the starting point is finite, no Newton step divides by zero, and every step brings the value closer to a root by at least a third.", "quantifier": "all coefficients b, c, d", "why_tests_cant": "Continuum of coefficients; iterates of a numerical loop.", "anchors": ["lambda-twist/src/lib.rs: cube_root"]}
{"id": "C64", "title": "P3P finds the pose of the camera", "statement": "If a camera in general position sees three non-collinear points in front of it, its pose is among the poses LambdaTwist returns.", "quantifier": "all poses, points, bearings and refinement counts", "why_tests_cant": "Continuum; includes symmetric configurations.", "anchors": ["lambda-twist/src/lib.rs: LambdaTwist::compute_poses_nordberg, estimate"]}
{"id": "C65", "title": "P3P returns only poses that see the points, at most four", "statement": "When some camera sees the three points, every pose LambdaTwist returns is rigid and sees the three points along their bearings in front of the camera, and there are at most four, so the fixed-size array never overflows.", "quantifier": "all poses, points, bearings and refinement counts", "why_tests_cant": "Continuum.", "anchors": ["lambda-twist/src/lib.rs: LambdaTwist::compute_poses_nordberg, estimate"]}
{"id": "C66", "title": "Iterative triangulation never makes the fit worse", "statement": "With a rate between 0 and 2, every step of the iterative ray triangulator does not increase the sum of squared distances from the observation rays, it rests exactly at the minima of that sum, and with larger rates it can diverge.", "quantifier": "all observation lists, start points, rates and iteration counts", "why_tests_cant": "Continuum of geometry and unbounded iteration.", "anchors": ["cv-geom/src/triangulation.rs: SineL1Triangulator", "cv-geom/src/epipolar.rs: point_gradient"]}
{"id": "C67", "title": "The angular triangulators make the smallest correction", "statement": "For rays that do not meet, the L1 and L-infinity triangulators replace the bearings by coplanar ones; no coplanar pair has a smaller sum (respectively maximum) of angles to the observed bearings, and the returned point is where the corrected rays meet.", "quantifier": "all poses and bearings in general position", "why_tests_cant": "Optimality over a continuum of candidate corrections.", "anchors": ["cv-geom/src/triangulation.rs: AngularL1Triangulator, AngularLInfinityTriangulator"]}
{"id": "C68", "title": "Pose gradients lead towards the observations", "statement": "The single-view pose gradient moves a point towards the observed ray and turns it towards the observed bearing without passing it; the two-view rotation gradient closes the angle between the epipolar planes without passing it; the steps of the optimisers are the rate times the mean (L2) or the Weiszfeld step (L1) of these.", "quantifier": "all points, bearings, translations and rates up to one", "why_tests_cant": "Continuum; sign conventions of rotations.", "anchors": ["cv-geom/src/epipolar.rs: world_pose_gradient, two_view_rotation_gradient", "cv-optimize/src/single_view_optimizer.rs"]}
{"id": "C69", "title": "Blurring keeps size, range and constants", "statement": "Gaussian blurring returns an image of the same size whose values lie between the least and the greatest value of the input; a constant image is unchanged; it fails only for a scale that is not positive.", "quantifier": "all image sizes, pixel values and positive scales", "why_tests_cant": "Continuum of scales and unbounded sizes, including images smaller than the kernel.", "anchors": ["akaze/src/image.rs: gaussian_blur, gaussian_kernel, separable_filter"]}
{"id": "C70", "title": "Derivative filters measure slopes", "statement": "On a linear ramp the horizontal and vertical derivative filters return the slope along their axis away from the border, and zero on constants, for every scale.", "quantifier": "all slopes, image sizes and scales", "why_tests_cant": "Unbounded sizes; normalisation must be right for every scale, not only the common ones.", "anchors": ["akaze/src/derivatives.rs: scharr_horizontal, scharr_vertical, simple_scharr_horizontal, simple_scharr_vertical"]}
{"id": "C71", "title": "A whole cycle of fast explicit diffusion is stable", "statement": "For conductivities between 0 and 1, running all steps of a cycle, in either order, never increases the mean square distance of two images nor the variance of one, although single steps exceed the stability limit; for cycle times up to 10^12.", "quantifier": "all image sizes, pixel values, conductivities and cycle times", "why_tests_cant": "Stability of a product of operators over a continuum of images; no finite sample shows it.", "anchors": ["akaze/src/fed_tau.rs: fed_tau_by_process_time", "akaze/src/nonlinear_diffusion.rs: calculate_step", "akaze/src/lib.rs: Akaze::create_nonlinear_scale_space"]}
{"id": "C72", "title": "Diffusion keeps the brightness of every level", "statement": "From each level of the scale space to the next (after halving the image where a new octave begins) the sum of the pixels is unchanged and the sum of their squared distances from any fixed value, hence the variance, does not grow.", "quantifier": "all images, sizes and settings for which the scale space is built", "why_tests_cant": "Holds along a chain of levels whose steps are individually unstable; needs a proof over all images.", "anchors": ["akaze/src/lib.rs: Akaze::create_nonlinear_scale_space", "akaze/src/evolution.rs: Akaze::allocate_evolutions", "akaze/src/nonlinear_diffusion.rs: calculate_step"]}
{"id": "C73", "title": "The detector response is the scaled Hessian determinant", "statement": "On an image that is a quadratic polynomial the detector response away from the border is the determinant of its Hessian times the fourth power of the integer filter scale; images and response have the same size.", "quantifier": "all quadratic images, sizes and scales", "why_tests_cant": "Continuum of coefficients, unbounded sizes; sign and normalisation errors only show on mixed second derivatives.", "anchors": ["akaze/src/detector_response.rs: Akaze::detector_response, compute_multiscale_derivatives_for_evolution"]}
{"id": "C74", "title": "Sub-pixel refinement finds the stationary point", "statement": "Finding and refining keypoints never panics on a scale space whose images have matching sizes. Each keypoint returned was found at a pixel of its level and moved by at most one pixel of that level, to the stationary point of the quadratic fitted to the response there; where the response is quadratic this is its true stationary point. Size, octave, level and response are those of the detection (the size doubled).", "quantifier": "all scale spaces with matching sizes, thresholds and derivative factors", "why_tests_cant": "Continuum of responses; coordinates of different octaves and offsets of half pixels must fit for every pixel and octave.", "anchors": ["akaze/src/scale_space_extrema.rs: Akaze::do_subpixel_refinement, Akaze::detect_keypoints"]}
{"id": "C75", "title": "The orientation of a keypoint is the dominant gradient direction", "statement": "The orientation of a keypoint lies between 0 and 2 pi and is the direction of the sum of weighted gradients, sampled around the keypoint at its scale, over a sector of 60 degrees for which this sum is longest among all the sectors tried.", "quantifier": "all keypoints, gradient images and scales", "why_tests_cant": "Continuum of gradients; the sectors wrap around at 2 pi, where off-by-one mistakes are invisible on generic images.", "anchors": ["akaze/src/scale_space_extrema.rs: compute_main_orientation"]}
{"id": "C76", "title": "Descriptors do not depend on brightness and contrast", "statement": "Multiplying an image by a positive factor and adding a constant (its derivatives are multiplied by the factor) leaves the descriptor of every keypoint unchanged.", "quantifier": "all images, keypoints, factors, offsets and pattern sizes from 4 up", "why_tests_cant": "Continuum of images and factors; every one of 486 comparisons must be unaffected.", "anchors": ["akaze/src/descriptors.rs: get_mldb_descriptor, mldb_fill_values, mldb_binary_comparisons"]}
{"id": "C77", "title": "Keypoints of the first octave keep their descriptor", "statement": "Whatever its orientation and sub-pixel shift, the descriptor pattern of a keypoint that was detected in the first octave lies inside the image, so no such keypoint is dropped; in higher octaves this holds half a pixel further away from the right and lower border.", "quantifier": "all scale spaces, keypoints found and refined, orientations and pattern sizes up to 10", "why_tests_cant": "The margin of the detector and the reach of the rotated pattern agree only by an inequality over all angles and shifts.", "anchors": ["akaze/src/scale_space_extrema.rs: Akaze::find_scale_space_extrema, Akaze::do_subpixel_refinement", "akaze/src/descriptors.rs: mldb_fill_values"]}
{"id": "C78", "title": "Extraction never panics", "statement": "For images of at least 40 by 40 pixels whose contrast factor is not zero, and settings with at least one sublevel, octave and histogram bin, positive base scale and pattern size and at most three channels, extraction returns keypoints and descriptors; in particular with the default settings.", "quantifier": "all images and settings as described", "why_tests_cant": "Every array access, unwrap and size subtraction on the way must be in range for every image size and content.", "anchors": ["akaze/src/lib.rs: Akaze::extract_from_gray_float_image, Akaze::create_nonlinear_scale_space", "akaze/src/scale_space_extrema.rs", "akaze/src/descriptors.rs", "akaze/src/detector_response.rs"]}
{"id": "C79", "title": "Features do not depend on brightness and contrast", "statement": "Adding a constant to every pixel changes nothing in the result of an extraction. Replacing every pixel v by a*v+b with a > 0, and the detector threshold t by a*a*t, gives the same keypoints in the same order, at the same places with the same sizes and angles, with the same descriptors; only their responses are multiplied by a*a. An extraction panics on the one image exactly when it does on the other.", "quantifier": "all non-empty images, factors a > 0 and constants b, all settings with a pattern size from 4 up and a contrast percentile of at most 1, every deterministic sort that looks only at comparisons", "why_tests_cant": "Continuum of images and factors through the whole pipeline: blur, contrast histogram, diffusion, detection, refinement, orientation and descriptors must all follow.", "anchors": ["akaze/src/lib.rs: Akaze::extract_from_gray_float_image", "akaze/src/contrast_factor.rs", "akaze/src/nonlinear_diffusion.rs", "akaze/src/detector_response.rs", "akaze/src/scale_space_extrema.rs", "akaze/src/descriptors.rs"]}
{"id": "C80", "title": "Candidate frames for a new frame are exactly the near and the similar ones", "statement": "The search for frames to match a frame with never panics. It returns, grouped by reconstruction, the views of exactly those frames that are within the configured distance in the same feed or among the first usable answers of the similarity search, and separately those of them that are in no reconstruction; none twice, and never the frame itself.", "quantifier": "all reachable states, frames, settings and answers of the similarity search", "why_tests_cant": "Feeds, reconstructions and the order of the answers interact; a view listed twice or a dead key shows only in particular histories.", "anchors": ["cv-sfm/src/lib.rs: VSlamData::find_visually_similar_and_recent_frames, abs_difference", "cv-sfm/src/settings.rs: tracking_recent_frames, tracking_similar_frames"]}
{"id": "C81", "title": "A reconstruction is started only from a verified triple of frames", "statement": "Starting a reconstruction from a free frame with free frames as options never panics. A failure changes nothing and means that no two of the options are good enough. A success adds exactly one reconstruction with three views; features share a landmark exactly if they are matched; all matches are two-view inliers that pass the test with the final poses, the second pose was put to the scale of the first by a median, and every step of the optimisation used at least 32 robust matches common to the three frames.", "quantifier": "all consistent states, free frames and options, settings with at least one scale, and all results of consensus, triangulation, optimisation, shuffles and neighbour search", "why_tests_cant": "Three match lists are filtered by each other through maps and five filters; early exits in nested loops are reached only by particular geometries.", "anchors": ["cv-sfm/src/lib.rs: VSlam::try_init, VSlam::init_reconstruction, VSlam::init_two_view"]}
{"id": "C82", "title": "The public interface never panics", "statement": "After any sequence of calls of the public methods of VSlam, any further call whose keys are live returns: adding a feed or a frame, incorporating, normalising, optimising, filtering and regenerating reconstructions. In particular add_frame always returns the key of a new frame, whatever the frame matches and whichever reconstructions are started, extended, merged or given up on the way. All tables agree afterwards, no frame or feed is lost or changes its number, and no reconstruction key is handed out twice.", "quantifier": "all histories of calls, all images, search answers, poses, hash orders and random numbers, all finite pose updates, settings with at least one initial feature, one scale and three landmarks per registration", "why_tests_cant": "One call runs through search, registration, merging, start and repeated optimisation; the lists of views found at its beginning must stay valid through removals caused by earlier loop passes.", "anchors": ["cv-sfm/src/lib.rs: VSlam::add_frame, VSlam::try_localize, VSlam::try_localize_and_incorporate, VSlam::incorporate_frame, VSlam::try_merge_reconstructions, VSlam::register_frame, VSlam::optimize_reconstruction, VSlam::apply_constraints, VSlam::regenerate_reconstruction, VSlam::filter_non_robust_observations, VSlam::normalize_reconstruction"]}
{"id": "C83", "title": "A reconstruction has at least three views", "statement": "After any sequence of calls of the public methods of VSlam every reconstruction has at least three different views, and every view belongs to a frame with at least three features.", "quantifier": "all histories of calls and all settings as for the previous property", "why_tests_cant": "Views are removed in several places; that none of them leaves a smaller reconstruction behind depends on checks in other functions.", "anchors": ["cv-sfm/src/lib.rs: VSlam::apply_constraints, VSlam::incorporate_frame, VSlam::try_merge_reconstructions, VSlam::filter_non_robust_observations, VSlamData::apply_bundle_adjust, VSlamData::add_reconstruction"]}
{"id": "C84", "title": "Poses and se(3) vectors convert into each other", "statement": "Converting a pose to its six numbers and back gives the pose; converting six numbers whose rotation is shorter than a half turn to a pose and back gives the numbers. The rotation part is never longer than a half turn and changes sign with the inverse rotation.", "quantifier": "all rigid poses and all vectors", "why_tests_cant": "Continuum of rotations; the inverse trigonometric functions and the normalised axis behave differently near zero and near a half turn.", "anchors": ["cv-core/src/pose.rs: Pose::se3, Pose::from_se3", "cv-core/src/so3.rs: From<Rotation3> for Skew3"]}
{"id": "C85", "title": "Optimising the poses respects fulfilled constraints, the frame of the world and the unit of length", "statement": "Applying constraints that already hold changes nothing. Applying them in a moved or scaled world gives the moved or scaled result. Only poses change, and they remain rotations with translations.", "quantifier": "all reachable states with reconstructions whose views all have constraints, all rates and iteration counts, all moves and scales", "why_tests_cant": "Continuum of poses and unbounded graphs; an error in the composition order cancels for commuting motions.", "anchors": ["cv-sfm/src/lib.rs: VSlam::apply_constraints, VSlam::constrain_view, VSlam::compute_momentum_bundle_adjust, ReconstructionViewConstraint::edge_constraints"]}
{"id": "C86", "title": "Optimising the poses reduces the disagreement with the constraints", "statement": "Applying constraints never increases the disagreement between the positions and orientations of the cameras and those asked for, keeps the mean position and the mean orientation, and with enough iterations comes as close as wanted to the best positions and to orientations that fit.", "quantifier": "all reachable states with reconstructions whose views all have constraints, all sizes of the graph, all rates and iteration counts", "why_tests_cant": "Convergence over all graphs and all iteration counts; the admissible rate depends on the number of constraints of a view.", "anchors": ["cv-sfm/src/lib.rs: VSlam::apply_constraints, VSlam::constrain_view", "cv-sfm/src/settings.rs: graph_optimization_rate, optimization_iterations"]}
{"id": "C87", "title": "Filters keep exactly the observations that fit", "statement": "Filtering observations keeps in every landmark exactly those that fit: a single one, two whose bearings meet up to the maximum sine distance, or those of three and more that are within the maximum cosine distance of the triangulated point; if none fits one is kept. Every other observation gets a landmark of its own. Filtering landmarks does the same with the landmarks that are robust and can be triangulated. Views, poses and constraints do not change. Filtering observations fails, and the reconstruction is given up, exactly when fewer robust landmarks are left than required. Whether two bearings meet does not depend on their order.", "quantifier": "all reachable states, poses, bearings, limits and results of triangulation", "why_tests_cant": "Continuum of poses and bearings and unbounded numbers of observations; the loop modifies the landmarks it runs over.", "anchors": ["cv-sfm/src/lib.rs: VSlam::filter_non_robust_observations, VSlam::filter_non_robust_landmarks, VSlam::is_bi_landmark_robust, VSlam::triangulate_landmark, VSlam::triangulate_landmark_robust"]}
{"id": "C88", "title": "A frame is registered only with a verified pose", "statement": "A registration that succeeds returns a rigid pose and exactly those unambiguous matches that agree with it: with the one earlier observation up to the maximum sine distance, or with a point that all earlier observations and the new one are within the maximum cosine distance of. The pose comes from a consensus over at least the required number of robust landmarks, improved with more than half of the inliers each time, and more than half as many robust landmarks as there were inliers agree with the final pose. If the consensus finds the exact pose it is accepted. The estimation never panics.", "quantifier": "all reachable states, frames, bearings, limits, settings, matches and results of consensus and triangulation", "why_tests_cant": "Continuum of poses and bearings; the pose changes in a loop after each change of the set of matches.", "anchors": ["cv-sfm/src/lib.rs: VSlam::register_frame_subset, VSlam::register_frame, VSlam::is_observation_consistent, VSlam::triangulate_merged_landmark_robust"]}
{"id": "C89", "title": "Constraints between three views come from what the views see", "statement": "The poses of a constraint are computed from the bearings of the landmarks with the most observations among those all three views see. There is no constraint if too few pairs of landmarks are seen apart by all three views. Otherwise its two poses are rigid and its translations have together the length of those between the cameras. They do not depend on the coordinates of the world. If the observations are exact, the constraint is exactly the motion between the cameras, so that all constraints generated for a view hold. The computation never panics.", "quantifier": "all reachable states, poses, bearings, settings and orders of the landmarks", "why_tests_cant": "Continuum of poses and bearings, any number of landmarks and iterations; the landmarks are shuffled.", "anchors": ["cv-sfm/src/lib.rs: VSlam::optimize_three_view, VSlam::generate_view_constraints", "cv-optimize/src/three_view_optimizer.rs"]}
{"id": "C90", "title": "Exact pictures give the true reconstruction", "statement": "If the frames are exact pictures of a scene and all matches and poses that come from outside are right, then after any calls every reconstruction is the true scene up to the choice of coordinates and of the unit of length: the motion between any two of its cameras is the true one, the observations of a landmark are of one point and their bearings meet in it, and all constraints hold. Adding frames, merging landmarks and reconstructions, filtering, regenerating constraints, optimising and normalising keep it so.", "quantifier": "all scenes, all finite sequences of calls, all sizes, settings, rates and iteration counts", "why_tests_cant": "Histories of unbounded length over a continuum of scenes; each call alone can look right while a change of coordinates or of scale is lost between two of them.", "anchors": ["cv-sfm/src/lib.rs: VSlam (all methods that change reconstructions), VSlam::try_merge_reconstructions, VSlam::incorporate_reconstruction, VSlam::optimize_reconstruction, VSlam::normalize_reconstruction"]}
{"id": "C91", "title": "Residuals measure whether a pose fits a match", "statement": "The residual of a camera pose and a world point is one minus the cosine of the angle between the bearing and the direction of the point: 0 exactly if the camera has the point in front of it along the bearing, 2 exactly if it is in the opposite direction. The residual of a relative pose and a match lies between 0 and 2; it is 0 for a match that fits (also one of a very distant point) and only for such a match, and a match whose rays meet behind one or both cameras gets 1 or 2. The reprojection error of a match is the difference between the images of the bearings and those of the triangulated point; it is zero exactly if they agree, and there is none if the point is behind a camera.", "quantifier": "all poses, bearings, points, and all correct eigenvalue solvers and triangulators", "why_tests_cant": "Continuum of poses and bearings; the sign of an eigenvector is not determined, so a test sees only the sign that one solver happens to return.", "anchors": ["cv-core/src/pose.rs: Model::residual for WorldToCamera and CameraToCamera", "cv-core/src/triangulation.rs: triangulate_observations_to_camera, triangulate_relative", "cv-pinhole/src/lib.rs: pose_reprojection_error, average_pose_reprojection_error"]}
{"id": "C92", "title": "A reconstruction started from exact data is true", "statement": "If the two-view consensus finds true motions (each up to a unit of length of its own) and only true matches, then a start that is found has both motions in one unit of length and only true matches, whatever the shuffles, the neighbour search and the number of filter rounds, and the reconstruction made from it is true. A start is found, with all matches, whenever enough common points are seen from sufficiently different directions; whether it is found does not depend on the units of length of the two-view motions. Without any assumption on the data, all three-frame matches of a start triangulate with the returned motions to points closer than the limit to all three bearings.", "quantifier": "all scenes, frames, features and options; all consensus answers that are true; all exact triangulators, in particular the linear one and its iterative refinement with any correct eigenvalue solver", "why_tests_cant": "Continuum of scenes and units of length; the random shuffles, the sort and the order of the options vary between runs.", "anchors": ["cv-sfm/src/lib.rs: init_reconstruction, is_tri_landmark_robust, is_bi_landmark_robust, init_two_view", "cv-optimize/src/lib.rs: three_view_simple_optimize_l2", "cv-geom/src/triangulation.rs"]}
{"id": "C93", "title": "With exact pictures, every history of calls yields true reconstructions", "statement": "If all pictures are exact, the descriptors found closest belong to the same point, and the two consensus algorithms return exact answers, then after any sequence of calls of public methods every reconstruction is the true scene up to coordinates and unit of length: camera poses, the points computed for the export, matches and constraints. A frame with exact bearings that is placed in a reconstruction gets its true pose and right matches, and it is placed whenever enough of its points are known and the consensus finds a pose.", "quantifier": "all scenes, all sequences of calls, all settings, all orders of hash maps and random choices, all triangulators that return no wrong point for exact observations (among them the two of the crate)", "why_tests_cant": "Continuum of scenes and unbounded histories; a numeric step that is wrong only for some frame order or some unit of length would not show in a sample.", "anchors": ["cv-sfm/src/lib.rs: add_frame, try_localize, try_localize_and_incorporate, register_frame, init_reconstruction, incorporate_frame, optimize_reconstruction, filter_non_robust_observations", "cv-optimize/src/lib.rs", "cv-geom/src/triangulation.rs"]}
{"id": "C94", "title": "A merge keeps the observation with the smaller loss, and losses are what they say", "statement": "In every reachable state every observation has a loss and computing it does not panic: 2 for the only observation of a landmark, one minus the cosine of the angle between the epipolar planes for two observations (the same for both and in either order), the cosine distance between bearing and triangulated point for three and more, and 2 if no point is found; it lies between 0 and 2 and is 0 for exact observations. When landmarks are merged with a view in common, the observation with the smaller loss is kept, the first landmark's in a tie, so a landmark with exact observations keeps all of them.", "quantifier": "all reachable states, poses, unit bearings, triangulators, orders of hash maps, all pairs of landmarks", "why_tests_cant": "Losses are real functions of all poses and bearings; the loop changes the landmarks it compares, and the outcome of a later view depends on what was split off before.", "anchors": ["cv-sfm/src/lib.rs: observation_loss", "cv-sfm/src/lib.rs: merge_landmarks_dedup"]}
{"id": "C95", "title": "Every camera pose and every constraint stays a rigid motion", "statement": "After any calls of public methods, with any pictures, right or wrong matches and any random choices, the pose of every view and both poses of every three-view constraint are rigid motions: a camera keeps all distances and the handedness of the world, and its inverse leads back. A further call returns, and all poses are rigid motions again.", "quantifier": "all histories of calls, images, matches, settings, learning rates, iteration counts and random choices", "why_tests_cant": "Poses are changed by every optimisation, merger, registration and normalisation; a reflection or a scaled matrix produced once would be passed on to all later poses.", "anchors": ["cv-sfm/src/lib.rs: optimize_three_view", "cv-sfm/src/lib.rs: constrain_view", "cv-sfm/src/lib.rs: register_frame_subset", "cv-sfm/src/lib.rs: try_merge", "cv-sfm/src/lib.rs: normalize_reconstruction", "cv-sfm/src/lib.rs: init_reconstruction"]}
{"id": "C96", "title": "Loading a picture keeps its shades", "statement": "Loading a picture with 8 or 16 bits per pixel gives an image of the same size with values between 0 and 1: black becomes 0, white becomes 1, and a lighter shade becomes a larger value, also after rounding to single precision. The same picture stored with 8 or with 16 bits, with or without transparency, gives the same image and the same features. For pictures with floating point values the documented range does not hold.", "quantifier": "all pictures, sizes, bit depths and roundings", "why_tests_cant": "There are ten formats with two divisions and roundings; a test with a few pictures does not exclude two shades that fall together or a format treated differently.", "anchors": ["akaze/src/image.rs: GrayFloatImage::from_dynamic"]}
{"id": "C97", "title": "The features of a frame are the keypoints of its picture", "statement": "Adding a picture to a feed gives one feature for every keypoint, with the descriptor, response, bearing and colour that belong to this keypoint. Reading the colour never leaves the picture. The features are sorted by response, so that using only the first ones uses the strongest, and there are no more than asked for. With a usable camera every feature has a bearing of unit length, which is what the reconstruction assumes. With default settings nothing panics if the picture has at least 40 pixels per side and some contrast.", "quantifier": "all pictures, settings, cameras and orders among equal responses", "why_tests_cant": "Four lists (keypoints, descriptors, bearings, colours) are built apart and zipped, then sorted; a shift between them shows only in wrong matches far away.", "anchors": ["cv-sfm/src/lib.rs: kps_descriptors", "cv-sfm/src/lib.rs: add_frame", "cv-pinhole/src/lib.rs: calibrate"]}
{"id": "C98", "title": "Turned over pictures have the same keypoints", "statement": "The scale space of a transposed picture (rows and columns exchanged) is the transposed scale space, the two derivatives exchange their parts, and the places where keypoints may be found are the transposed places with the same sizes and responses; a keypoint stronger than all places near it is found in both, and sub-pixel refinement drops both or moves them to the same place. The same for a picture with left and right exchanged, when its width can be halved once per octave.", "quantifier": "all pictures, sizes and settings", "why_tests_cant": "A filter applied along the wrong axis, an off-by-one centre or a border treated differently on one side changes a few pixels; a test compares a few pictures, with a tolerance.", "anchors": ["akaze/src/lib.rs: Akaze::extract_from_gray_float_image", "akaze/src/detector_response.rs", "akaze/src/derivatives.rs", "akaze/src/image.rs: GrayFloatImage::half_size", "akaze/src/scale_space_extrema.rs"]}
{"id": "C99", "title": "Threads do not change the features", "statement": "Built with threads, akaze finds for every picture the same keypoints and descriptors, in the same order, as built without them, however the work is split and scheduled; it panics exactly when the build without threads does; and no schedule goes on for ever or gets stuck.", "quantifier": "all pictures, settings, splits of the work and schedules", "why_tests_cant": "A closure that writes to what another one reads, or a result collected in order of completion, goes wrong only for some schedules; a test sees the few schedules of its machine.", "anchors": ["akaze/src/detector_response.rs: detector_response, compute_multiscale_derivatives", "akaze/src/lib.rs: Akaze::create_nonlinear_scale_space", "akaze/src/scale_space_extrema.rs: do_subpixel_refinement", "akaze/src/descriptors.rs: Akaze::extract_descriptors"]}
{"id": "C100", "title": "A landmark without one of its views", "statement": "Asking whether a landmark is robust without a view, and triangulating it without the view, gives what one gets after removing the view. It is robust without the view exactly if two other views see it from sufficiently different directions.", "quantifier": "all reachable states, landmarks, views, settings and triangulators", "why_tests_cant": "The leave-one-out question and the removal of a view are computed by different code; whether they agree depends on how many observations are left, which tests on a few states do not vary.", "anchors": ["cv-sfm/src/lib.rs: VSlam::is_landmark_robust_without_view, triangulate_landmark_robust_without_view", "cv-sfm/src/lib.rs: VSlam::is_landmark_robust, VSlamData::remove_view"]}
{"id": "C101", "title": "Runs of the sandbox program", "statement": "The program that reconstructs from pictures never panics, for any pictures, any settings that are sane, and any number of runs that share a data file. In a run every picture becomes a new frame, each reconstruction is normalised at most once and before it is first exported, every exported file shows the reconstruction of the frame just added with at least three cameras, and all frames saved by earlier runs are kept. Without pictures the data file stays as it is.", "quantifier": "all histories of runs, pictures, settings and outcomes of matching and geometry", "why_tests_cant": "Panics and double normalisation depend on merges and removals of reconstructions over many pictures and on state carried over between runs.", "anchors": ["vslam-sandbox/src/main.rs: main", "cv-sfm/src/lib.rs: VSlam::add_frame, normalize_reconstruction, export_reconstruction"]}
{"id": "C102", "title": "Extraction with floating point numbers never panics", "statement": "With single and double precision numbers, rounding, overflow and NaN included, extraction of features returns for every picture of 40 to 2^22 pixels in each direction, whatever its pixels are: flat pictures, infinite pixels and NaN too. There is one descriptor of 64 bytes per keypoint, at most as many as asked for, and every keypoint is at a finite position within the picture. This holds for the default settings and for all settings whose levels have derivative scales of at least a pixel and never a single diffusion step. If no operation rounds, the keypoints and descriptors are those of the extraction with real numbers, which the other properties are about.", "quantifier": "all pictures, pixel values (NaN and infinities included), settings, rounding modes, and results of exp, sin, cos, atan2 and rem_euclid", "why_tests_cant": "A panic needs a NaN or an infinity at one pixel of one level, or a rounding that moves a keypoint onto the border; tests use ordinary pictures and see none of these.", "anchors": ["akaze/src/lib.rs: Akaze::extract_from_gray_float_image", "akaze/src/scale_space_extrema.rs", "akaze/src/descriptors.rs", "akaze/src/contrast_factor.rs", "akaze/src/evolution.rs", "akaze/src/fed_tau.rs", "akaze/src/image.rs"]}
{"id": "C103", "title": "Poses from three points with floating point numbers", "statement": "With double precision numbers, rounding, overflow and NaN included, the three-point pose solver returns at most four poses for any three or more samples and never panics; with fewer it panics. If a coordinate of a bearing or of a world point is NaN or infinite there is no pose. The depths found are neither NaN nor negative. Their refinement never makes the computed error larger, or else makes it NaN (which happens: a step may divide by zero). Without rounding, all poses of the exact solver are returned.", "quantifier": "all samples (NaN and infinities included), numbers of refinement steps, rounding modes, matrix inversions and conversions to rotations", "why_tests_cant": "Overfull result arrays, NaN in one coordinate and singular refinement steps appear for special inputs only; tests use random poses and points in general position.", "anchors": ["lambda-twist/src/lib.rs: LambdaTwist::estimate", "lambda-twist/src/lib.rs: compute_poses_nordberg", "lambda-twist/src/lib.rs: gauss_newton_refine_lambda", "lambda-twist/src/lib.rs: cube_root"]}
{"id": "C104", "title": "Triangulation by the mean of rays", "statement": "The mean-mean triangulator returns the point on the ray from the mean of the camera centres along the sum of the bearings whose distance is the mean of the distances of the points of this ray nearest to the single rays. It returns nothing for fewer than two observations. For exact observations it returns the observed point if all cameras are equally far from it and the cheirality test passes; for cameras at different distances it does not.", "quantifier": "all lists of observations with rigid poses and unit bearings", "why_tests_cant": "The doctest allows an error of 1e-2, so it cannot tell an inexact method from a sign or averaging mistake; degenerate rays are not sampled.", "anchors": ["cv-geom/src/triangulation.rs: MeanMeanTriangulator::triangulate_observations"]}
{"id": "C105", "title": "Triangulation, losses and gradients with floating point numbers", "statement": "With floating point arithmetic (rounding, overflow, infinities and NaN): a point returned by the angular, linear, relative DLT or mean-mean triangulators has four finite homogeneous coordinates. If a number of the pose or of a bearing is infinite or NaN, the angular and the mean-mean triangulators return nothing. The epipolar loss is never NaN and never negative, and 1 where its inputs are NaN; it can be infinite for finite inputs. The gradients given to the optimisers contain no NaN. The refining triangulator does not check its result: it returns a point with a NaN coordinate whenever the position of its starting point overflows. Without rounding all these programs compute what the exact models compute.", "quantifier": "all poses, bearings and observations with floating point coordinates, all floating point formats and rounding modes that meet the listed rules, all eigenvalue and singular value solvers", "why_tests_cant": "Tests sample well-conditioned poses; overflow, underflow and NaN in single coordinates reach branches that no sampled input reaches.", "anchors": ["cv-geom/src/epipolar.rs: loss, three_view_gradients, world_pose_gradient, point_gradient", "cv-geom/src/triangulation.rs: all triangulators", "cv-core/src/point.rs: from_homogeneous", "cv-core/src/so3.rs: Se3TangentSpace::new"]}
{"id": "C106", "title": "Rounding errors of the pinhole camera", "statement": "With floating point arithmetic: let every number of the camera and of the pixel be at most K, the focal lengths at least 1 and the normalised coordinates of the pixel at most b, and let every operation have a relative error of at most u (and a small absolute error where numbers underflow). Then `calibrate` returns finite numbers with a positive third coordinate, a squared length within 12u of 1, and a direction that an exact camera sees within 24uKb of the pixel; `uncalibrate` of it returns a pixel within 40uKb of the first in both coordinates. For `f64` and pictures below 10^4 pixels this is below 10^-8 pixels. The principal point comes back exactly. A bearing with a negative third coordinate gives no pixel, one sideways a pixel that is not finite. With radial distortion k1, for a pixel at distance r from the centre in normalised coordinates at which distances change by a fraction s = k1 r\u00b2 of at most 1/8 either way, `uncalibrate` of `calibrate` returns a pixel within 92uKb + 20uKr/|s| of the first; this bound grows as the coefficient or the distance shrinks. The principal point, for every coefficient, and every pixel, for a coefficient of zero, comes back as NaN.", "quantifier": "all cameras, pixels and bearings with floating point coordinates within the stated ranges, all floating point formats and rounding modes that meet the listed rules", "why_tests_cant": "Tests compare one pixel with a tolerance of 10^-6; how errors grow with the size of the picture and the field of view needs a bound over all of them.", "anchors": ["cv-pinhole/src/lib.rs: CameraIntrinsics::calibrate, CameraIntrinsics::uncalibrate, CameraIntrinsicsK1Distortion::calibrate, CameraIntrinsicsK1Distortion::uncalibrate"]}
{"id": "C107", "title": "A match tells the four poses of an essential matrix apart", "statement": "Decompose the essential matrix of a pose with a translation (scaled by any factor of either sign, as the eight-point estimator returns it) into its four possible poses. For every match of a point in front of both cameras whose bearings are not parallel, the residuals of the four poses, as sample consensus computes them, are 0, 1, 1 and 2 in some order, and the 0 belongs to the pose of the matrix with its translation scaled to length one. So for every inlier threshold up to 1 and any number of such matches, that pose has all of them as inliers and the other three have none. The two possible rotations are the one of the pose and the one that differs from it by a half turn about the translation. The same holds for the whole eight-point estimator on matches that determine the essential matrix.", "quantifier": "all rigid poses with a translation, all scales and signs of the matrix, all correct singular value decompositions and eigenvalue solvers, all matches and numbers of matches", "why_tests_cant": "Tests try a few random poses and only ask that one of the results is close; that the other three are rejected by every match of every scene is a statement about all of them.", "anchors": ["cv-pinhole/src/essential.rs: possible_rotations, possible_rotations_unscaled_translation, possible_unscaled_poses", "eight-point/src/lib.rs: Estimator::estimate", "cv-core/src/pose.rs: Model<FeatureMatch> for CameraToCamera"]}
{"id": "C108", "title": "The pose optimisers with floating point numbers", "statement": "The five pose optimisers (one view L1 and L2, three views L1, L2 and adaptive), with every operation of f64 and all its special values: without rounding they return exactly the poses of the exact optimisers. A landmark with NaN in one of its bearings adds nothing to the gradients. If all landmarks are like this, the optimisers of one view return the pose they were given and those of three views what two inversions make of the poses, whatever the number of iterations (the L1 optimisers if their weights are positive). If a number of a pose is NaN or infinite, the returned pose is not finite either: no optimiser turns it into one that looks valid. If all points are at infinity, the L1 optimiser of one view returns a pose that is not a number, the L2 optimiser keeps the pose.", "quantifier": "all floating point formats with monotone rounding, all finite and non-finite poses, all landmarks and numbers of landmarks, all rates and numbers of iterations", "why_tests_cant": "NaN reaches the optimisers only from rare degenerate matches; tests with sampled scenes never produce it, and the guards that turn NaN gradients into zero must work in each of the places where it can arise.", "anchors": ["cv-optimize/src/single_view_optimizer.rs: single_view_simple_optimize_l1, single_view_simple_optimize_l2, landmark_delta", "cv-optimize/src/three_view_optimizer.rs: three_view_simple_optimize_l1, three_view_simple_optimize_l2, three_view_adaptive_optimize_l2", "cv-core/src/so3.rs: Se3TangentSpace::new, isometry, l1"]}
{"id": "C109", "title": "No acceptance test takes NaN for a good match", "statement": "With every operation of f64 and all its special values: a world pose with an entry that is NaN or infinite has no inlier, and a bearing with NaN or a point with NaN or infinity is an inlier of no world pose, whatever the threshold. A relative pose with such an entry has no inlier and a bearing with NaN is in no inlier for thresholds of at most two, whatever the eigenvalue solver returns. An essential matrix with such an entry has no inlier; a bearing with NaN, or with a depth that is zero or infinite, is in none. The tests of landmarks with two (for limits of at most one) and three observations, the test of consistency and the test of the angle between rays fail for such poses and bearings, whatever the triangulator returns; a robust landmark has two observations without NaN that meet at a sufficient angle. The filter of observations compares the other way round: it keeps every such observation of a landmark that has a point. Without rounding all residuals and tests are exactly the exact ones.", "quantifier": "all floating point formats with monotone rounding, all poses, matrices, points and bearings, all thresholds, all eigenvalue solvers and triangulators", "why_tests_cant": "Whether a comparison with NaN counts as near or as far depends on how it is written; tests with sampled scenes never see NaN, and a single wrong comparison lets an unusable pose win sample consensus.", "anchors": ["cv-core/src/pose.rs: Model<FeatureWorldMatch> for WorldToCamera, Model<FeatureMatch> for CameraToCamera", "cv-pinhole/src/essential.rs: Model<FeatureMatch> for EssentialMatrix", "cv-sfm/src/lib.rs: is_bi_landmark_robust, is_tri_landmark_robust, is_observation_consistent, is_bi_observation_angularly_robust, are_observations_robust, filter_non_robust_observations"]}
{"id": "C110", "title": "NaN and infinity do not spread through graph optimisation, normalisation and relative scales", "statement": "With every operation of f64 and all its special values: a view gets a new pose from its constraints only if its own pose, the poses of the constraints and the poses of the other views have only finite numbers, although a logarithm with NaN counts as zero. So after a round of graph optimisation that keeps the reconstruction, every remaining view has a constraint, and all its constraints and all views in them had finite poses; a view with NaN or infinity is removed in the same round together with every view it shares a constraint with. Normalisation leaves the reconstruction as it was if the pose of the first view is not finite or a point of it has NaN, and points with infinite coordinates do not change the scale. A relative scale that is accepted while two pairs of views are joined is a positive finite number, and so is the scale applied, the root of the middle one. Without rounding these functions are exactly the exact ones.", "quantifier": "all floating point formats with monotone rounding, all reconstructions, poses, constraints and points, all logarithms, exponentials and rates", "why_tests_cant": "Poses that are not finite come from rare degenerate matches; one of them, averaged into its neighbours or used to scale all poses, would spoil a whole reconstruction, and the code that replaces NaN by zero looks as if it could hide it.", "anchors": ["cv-sfm/src/lib.rs: constrain_view, edge_constraints, compute_momentum_bundle_adjust, apply_constraints, normalize_reconstruction, init_reconstruction (relative scales)", "cv-core/src/pose.rs: se3", "cv-core/src/so3.rs: log"]}
{"id": "C111", "title": "Residuals and acceptance tests are those of exact arithmetic, up to a stated rounding error", "statement": "For a floating point type that rounds with a relative error of at most u (and an absolute error for numbers too small for it): the residual of a world pose for a match, and the cosine distance of an observation from a point, is a number within 64 u k of the exact one, where k is the sum of the distances of the point and of the camera from the origin over the distance between them. The residual of an essential matrix is within 96 u b^2 e for image coordinates of at most b and entries of at most e. The epipolar loss of two bearings is within 256 u k, where 1/k is the sine of the angle between the baseline and the bearing farther from it, unless the bearings are perpendicular up to rounding. Hence a match is an inlier, an observation is kept by the filter, an observation is consistent with others, a landmark in two or three views passes its test, and a landmark counts as robust, exactly as in exact arithmetic unless an exact quantity lies within this margin of its limit.", "quantifier": "all floating point formats with monotone rounding, precision and range, all poses that are rotations up to 1 %, all points not at infinity, all bearings that are unit vectors up to 1 %, all limits, all triangulators", "why_tests_cant": "Rounding errors grow with cancellation, which a test meets only by accident; that they are bounded by a condition number for every scene, and that two branches of the loss agree where rounding chooses between them, no sample can show.", "anchors": ["cv-core/src/pose.rs: Model<FeatureWorldMatch> for WorldToCamera, Pose::transform", "cv-pinhole/src/essential.rs: Model<FeatureMatch> for EssentialMatrix", "cv-geom/src/epipolar.rs: loss", "cv-sfm/src/lib.rs: is_bi_landmark_robust, is_tri_landmark_robust, is_observation_consistent, are_observations_robust, filter_non_robust_observations"]}
{"id": "C112", "title": "Poses moved many times stay rigid motions, up to an error that grows by a fixed amount with each step", "statement": "For a floating point type that rounds with a relative error of at most u: the product of two poses is the exact product up to 11 u in the rotation and 10 u L in the translation (L bounds the translations) besides the errors of the factors, the inverse is the exact inverse up to 6 u L, and a pose times its inverse is the identity up to 11 u and 26 u L. A pose moved n times is where exact arithmetic would have brought it, with an error that grows by a fixed amount with each step and not by a factor. The rotation made from a rotation vector is a rotation up to 560 u, and is the exponential of the vector up to that and 32 u for each radian, if sine and cosine are accurate to 2 u. Hence every finite pose returned by the single-view and three-view optimisers after n iterations, and every pose of every view after graph optimisation, has a rotation matrix that is a rotation up to n (1.02 e + 11 u) more than at the start, where e is the error of the exponential; the code never orthonormalises, and this is how far that can go.", "quantifier": "all floating point formats with precision and range, all poses near rigid motions, all numbers of steps, all landmarks, observations, constraints, settings and reachable reconstructions, as long as the bound stays below 1/50", "why_tests_cant": "Drift is invisible after the few iterations of a test and depends on the way the poses take; a bound for every number of steps and every input needs a proof.", "anchors": ["cv-core/src/pose.rs: Pose, composition and inverse", "cv-core/src/so3.rs: Se3TangentSpace::isometry, From<Skew3> for Rotation3", "cv-optimize/src/single_view_optimizer.rs: single_view_simple_optimize_l1, single_view_simple_optimize_l2", "cv-optimize/src/three_view_optimizer.rs: three_view_simple_optimize_l1, three_view_simple_optimize_l2, three_view_adaptive_optimize_l2", "cv-sfm/src/lib.rs: VSlam::optimize_reconstruction, apply_constraints, constrain_view"]}
