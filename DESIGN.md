# Design: a Lean 4 model of rust-cv/cv

## 1. Trusted base

* Lean 4.33.0's kernel, and the Mathlib modules imported one by one.
* Axioms: every property theorem may depend only on `propext`, `Classical.choice`
  and `Quot.sound` (the standard three). No axiom, `sorry`, `native_decide` or
  `bv_decide` is used anywhere. The axioms of each theorem are re-checked with
  `#print axioms` at every milestone.
* The reading of the Rust source. The code was not built or run; every definition
  cites the file and lines it models, and says where it simplifies.
* External crates are parameters or stated contracts:
  - `slotmap::DenseSlotMap`: a finite map with a fresh-key counter (keys carry a
    version, so a removed key never resolves again; version wrap after 2^31 reuses of
    one slot is not modelled). Iteration order is list order.
  - `hashbrown`/std `HashMap`: a finite map; where iteration order can matter the
    order is an explicit argument ranging over every permutation.
  - `nalgebra`: 3-vectors, 3x3 matrices and isometries with the textbook meaning.
    SVD and symmetric eigendecompositions are parameters constrained by their contract
    (orthogonal factors, product equals input). Convergence of those algorithms and
    their failure returns are not modelled beyond an explicit `none`.
  - `hgg`/`hamming-lsh`/`arrsac`: nearest neighbours and consensus results are
    arbitrary inputs.
  - Solvers of nalgebra (singular values, symmetric eigenvalues, LU, eigenvalues of a general
    matrix) are parameters; the theorems assume a relation between argument and result
    (`IsSVD`, `SymEigen`, ...). nalgebra 0.30 is taken to return singular values in decreasing order.
  - `primal::is_prime` decides primality; `average::Mean` is the mean.
  - `sort_unstable_by` is any function that permutes its list and orders it.
  - `ply-rs` and the file system write what they are given.
  - `ndarray`, `image`, `rayon`: arrays are total functions or lists with explicit
    bounds. `rayon::join` runs both closures in any interleaving and passes panics on; parallel
    iterators split their range anywhere and collect in its order (C99). All other theorems are about the
    program without threads, which C99 shows to have the same results.
* Numbers. Floating point is replaced by exact arithmetic (real numbers, or any
  ordered field). Rounding, overflow and denormals are NOT modelled, except in C102 (all of akaze), C103 (lambda-twist), C105 (cv-geom), C106 (cv-pinhole), C108 (cv-optimize), C109 (residuals and tests of landmarks), C110 (graph optimisation, normalisation), C111 (rounding errors of residuals), C112 (drift of poses) and in the reads of C57,
  where they are: there the assumptions are the laws of the structure `Ieee` (IEEE 754, saturating casts, `powf(2, n)` exact
  for small `n`), with fused multiplications as two operations and sums of several terms in a fixed order. Division by zero
  is never silently totalised: where a divisor can vanish the model returns an explicit
  `none` ("NaN or infinite") or the theorem carries the guard and a companion theorem
  covers the excluded point. `is_sign_negative` is modelled as `< 0` (exact zero has
  positive sign); `-0.0` is not modelled. Properties whose whole content is numerical are marked `partial` when the
  missing rounding matters to the English claim. Integers (`usize`) are `Nat`, with
  subtraction underflow an explicit panic value; overflow beyond 2^64 is not modelled.

## 2. Conventions

* A panic is an explicit value, `none`. Where the code would go on with NaN or an infinity the
  model also returns `none` (a separate layer of `Option` where both can happen).
* `&mut self` methods return the new state.
* Loops are structural recursion, folds, or recursion on explicit fuel together with
  a theorem that the fuel suffices.
* Property theorems live in `Verif/Props/*.lean`, the models in `Verif/Model/*.lean`,
  the helper lemmas in `Verif/Lemmas/*.lean`, the specification predicates in
  `Verif/Spec/*.lean`. The latter are meant to be read without the proofs.
* Beside each theorem an `example` exhibits a concrete non-trivial case.
* When a property is false of the code as written, the negation is proved with a
  concrete witness, and a `_partial` theorem states what does hold.

## 3. What is modelled

| module | code | lines |
|---|---|---|
| `Model/FMap` | hash maps and slot maps as used by cv-sfm | contract |
| `Model/SfmData` | cv-sfm `VSlamData`: feeds, frames, reconstructions, views, landmarks, constraints, all mutating methods | cv-sfm/src/lib.rs 95-560 |
| `Model/SfmOps` | cv-sfm `VSlam`: splitting and merging of landmarks, incorporation, merging of reconstructions, constraint recording, the bookkeeping of the optimisation loop | cv-sfm/src/lib.rs 814-3000, see each definition |
| `Model/SfmHistory` | all public operations as one step function | |
| `Model/SfmSanity` | `sanity_check` | 3060-3095 |
| `Model/SfmRegister` | `register_frame`, `register_frame_subset` with the pose estimation as a parameter | 1434-1812 |
| `Model/SfmGeometry` | robustness of observations, `normalize_reconstruction`, `export_reconstruction`, `export` | 2241-2340, 2907-3002, export.rs |
| `Model/SfmSearch` | `find_visually_similar_and_recent_frames` | 597-668 |
| `Model/SfmStart` | `try_init`, `init_reconstruction`, `init_two_view`: control flow, match bookkeeping, median | 811-839, 950-1304, 1362-1432 |
| `Model/SfmTop` | `add_frame`, `try_localize`, `try_localize_and_incorporate`, and all other public methods that change the state, as calls | 777-948, 2062-2193 and the lines cited in `SfmOps` |
| `Model/PoseGraph` | log map and se(3) vectors of poses, the numeric part of `constrain_view` | cv-core so3.rs 266-281, pose.rs 54-66, cv-sfm lib.rs 1888-1936 |
| `Model/SfmFilter` | the geometric tests of both filters, put into the filters of `SfmOps` | 1306-1317, 2657-2813, 2874-2891 |
| `Model/SfmPose` | sorting of the matches, pose estimation and final filter of `register_frame_subset`, `is_observation_consistent` | 1563-1760, 2622-2655, 2959-2976 |
| `Model/SfmThree` | the poses of a three-view constraint: numeric part of `optimize_three_view` | 1957-2060 |
| `Model/Matching` | `matching`, `symmetric_matching` | 3097-3133 |
| `Model/Bicubic`, `BicubicFloat` | `interpolate_bicubic`; the second with coordinates that are NaN or infinite | bicubic.rs |
| `Model/Fed` | the time steps of fast explicit diffusion | akaze fed_tau.rs |
| `Model/Image`, `Blur` | images, half sizing, separable filters, Scharr and Gaussian kernels | akaze image.rs, derivatives.rs |
| `Model/Diffusion`, `Contrast`, `Evolution` | conductivity, diffusion step, contrast factor, allocation and computation of the scale space | akaze nonlinear_diffusion.rs, contrast_factor.rs, evolution.rs, lib.rs |
| `Model/Detect`, `Orient`, `Descriptor` | detector response, extrema and their suppression, sub-pixel refinement, orientation, descriptors, the whole extraction | akaze detector_response.rs, scale_space_extrema.rs, descriptors.rs, lib.rs |
| `Model/Linear` | vectors, matrices, isometries | contract of nalgebra |
| `Model/Pose` | homogeneous points, poses, tangents, Jacobians | cv-core |
| `Model/Pinhole`, `Essential` | intrinsics, distortion, essential matrices | cv-pinhole |
| `Model/EightPoint`, `FivePoint`, `LambdaTwist` | minimal solvers | eight-point, nister-stewenius, lambda-twist |
| `Model/Triangulate` | triangulators and gradients | cv-geom |
| `Model/Optimize` | pose optimisers | cv-optimize |
| `Model/Residual` | residuals of poses, reprojection errors, default methods of the triangulators | cv-core pose.rs 194-300, triangulation.rs, cv-pinhole lib.rs 314-372 |
| `Model/SfmStartGeo` | numeric steps of the start of a reconstruction | cv-sfm lib.rs 1003-1059, 1085-1097, 1131-1136, 1306-1360 |
| `Model/SfmLoss` | `observation_loss` | cv-sfm lib.rs 2570-2620 |
| `Model/Load` | `from_dynamic` | akaze image.rs 45-109 |
| `Model/SfmFrame` | `kps_descriptors` | cv-sfm lib.rs 59-65, 2195-2236 |
| `Model/Parallel` | akaze with the feature `rayon` | akaze detector_response.rs 8-85, lib.rs 218-257, scale_space_extrema.rs 343-358, descriptors.rs 20-45 |
| `Model/SfmWithout` | `is_landmark_robust_without_view`, `triangulate_landmark_robust_without_view` | cv-sfm lib.rs 356-377, 3003-3045 |
| `Model/Sandbox` | the main loop of vslam-sandbox | vslam-sandbox main.rs 79-175 |
| `Model/FloatArith`, `Model/FloatAkaze` | extraction with `f32` and `f64` | all of akaze except conversion of pictures |
| `Model/FloatTwist` | lambda-twist with `f64` | all of lambda-twist except the unused third eigenvector; `try_inverse` and `from_matrix_eps` are parameters |
| `Model/MeanMean` | mean-mean triangulation | cv-geom triangulation.rs 389-443 |
| `Model/FloatGeom` | triangulators, losses and gradients over floating point numbers | cv-geom triangulation.rs, epipolar.rs; cv-core point.rs 20-49, so3.rs 15-34 |
| `Model/FloatPinhole` | cameras over floating point numbers | cv-pinhole lib.rs 32-36, 104-141, 150-241 |
| `Model/FloatOptimize` | pose optimisers over floating point numbers | single_view_optimizer.rs, three_view_optimizer.rs, so3.rs 23-144, pose.rs 125-133 |
| `Model/FloatResidual` | residuals and acceptance tests over floating point numbers | pose.rs 194-202, 248-300, essential.rs 266-275, triangulation.rs (cv-core) 20-38, cv-sfm lib.rs 1306-1360, 2622-2655, 2717-2728, 2894-2936 |
| `Model/FloatGraph` | graph optimisation, normalisation and relative scales over floating point numbers | cv-sfm lib.rs 1022-1055, 1892-1936, 2241-2283, pose.rs 54-66, so3.rs 264-274 |

Not modelled: logging, serialisation (serde/bincode), image decoding, plotting, the tutorial programs, the command line
of the sandbox program, `space`/LSH/HGG internals, ARRSAC internals, performance, floating point rounding outside akaze.

## 4. Properties

For each: what is modelled, how it is proved. The exact theorem names are in MANIFEST.json.

### Structure from motion

* **C01, C02, C03, C04, C05, C06, C20** One state machine `Data` with an operation type `Op`
  and `step : Data → Op → Option (Data × Out)`. `Consistent : Data → Prop` is written
  directly in terms of lookups. Proved by one-step preservation for every operation, then
  induction over arbitrary histories whose operations meet stated preconditions; absence of
  panics is `step ≠ none` for the same histories. C06 is an invariant on the counters.
* **C07, C08** Frame conditions proved from the map laws for one operation.
* **C09** False as documented: negation witness, an exact condition for the panic, and a
  `_partial` theorem for landmarks without common view.
* **C10** `merge_landmarks_dedup` as a loop over the shared views with an arbitrary loss
  function; invariant over the loop.
* **C11** `incorporate_reconstruction` as a fold; relational spec of co-observation.
* **C12** Matching as a function of arbitrary neighbour answers; injectivity proof.
* **C13** The doubling loop on fuel; coverage and termination bound by induction. The setting 0
  is a proved non-termination.
* **C14** Model of the top-three selection and the count filter.
* **C15** Group computation.
* **C16** Optimisation loop with an oracle for non-finite updates. False in general (witness);
  `_partial`: safe when all updates are finite, or for one iteration.
* **C17** Poses are isometries over the reals (rotation matrix with RRᵀ = 1 and determinant 1);
  group computation, and the effect of a common motion on every term of the mean distance.
* **C18** Model of the combinatorial enumeration with an arbitrary robustness oracle and random
  choices.
* **C19** Lists of vertices and faces, induction over cameras; positions by group computation.
* **C57, C58** The neighbourhood as integer bounds on floors; the blend as a polynomial
  identity, then bounds for the truncating cast. For NaN and infinite coordinates a second model with the comparisons and
  casts of floating point values, shown to agree with the first one on numbers (`C57_numbers`).
* **C59** The pairs of a list, up to permutation and sublist.
* **C60** `sanity_check` as a function returning its complaints.
* **C61, C62** `try_merge` and `record_view_constraints`; C61 is false (witness).
* **C80** The search as list functions; membership specified by positions in feeds and in the
  answers.
* **C81** Loop over pairs of options with every numeric result a parameter; the specification says
  what the matches, the scale and the optimisation history of a start must be. What a failure means
  is false as stated (witness and partial).
* **C82, C83** Histories of public calls (`Spec/SfmTop`) and an invariant on them: tables agree,
  every reconstruction has three views, every view three features. The loops of `try_localize` are
  treated by a relation between the data before and after a pass: which reconstructions may have
  changed, and which frames may have been placed.
* **C85** The optimisation loop with the numeric part of `constrain_view` filled in: shown to be the
  iteration of a map on poses, which fixes poses that fulfil the constraints and commutes with
  moving and scaling the world.
* **C86** With the right orientations that map is, in each coordinate of the camera centres, a
  gradient step on a graph; descent and convergence by convexity. With wrong orientations, but all
  about one axis, the same holds for the angles: the logarithm of a rotation by less than a half turn
  is its angle, and that no angle ever reaches a half turn follows from the descent itself, or from a
  maximum principle when the orientations asked for are less than a quarter turn away. About any axes
  the orientations are written as quaternions relative to those asked for (`Lemmas/Quat`): the smallest
  scalar part never decreases, and the sum of the scalar parts grows by at least a multiple of the
  squared angles that remain, so these are summable (`Lemmas/QuatDescent`). Meanwhile the positions
  follow the graph step with a disturbance that vanishes with the angles; on a finite graph the step
  alone contracts the distances by a fixed factor (`Lemmas/GraphGap`, from the inverse of a linear map on
  its range), so they vanish as well (`Lemmas/PoseGraphPlaces`). Missing: monotone descent when the axes
  differ, constraints that no poses fulfil together with wrong orientations, and large rates, for which
  it is false (witness).
* **C87** The filters of `SfmOps` with the geometric tests filled in. The loop changes the landmarks
  it runs over; a relation between the reconstruction before and during the loop (`SplitOff`) shows
  that each landmark is judged as it was before, so the result is the one of a single pass over the
  old reconstruction. The specification (`Fits`, `Sorted`) does not mention the loop.
* **C88** The parameter of C13 and C14 is replaced by the pose estimation of the program; consensus
  and triangulation stay parameters. Induction over the loop gives the sequence of poses and points
  (`FoundFrom`); completeness for an exact pose uses the fixed points of the optimiser (C55).
* **C89** The answer assumed for the optimisation of a constraint is replaced by the computation of
  the program (`threeOracle`). Which landmarks are used is stated without sorting (`MostObserved`),
  the number of pairs as the size of a set. Exactness from the fixed points of the optimiser (C55).
* **C90** Specification of a scene and of a reconstruction being true to it (`Spec/SfmExact`). Invariant
  of all calls: what comes from outside is right (`Honest`), the geometric steps inside are those of
  the program (C85, C89). Missing: mergers of reconstructions with different units of length, for
  which it is false.
* **C92** The search of C81 with its numeric steps filled in: every ratio of distances is the squared ratio of
  the units, the median picks it, the optimiser is at rest (C55), the tests are tests of angles. Refines to
  the operation of C90. False that the units do not matter (witness).
* **C93** The history of C82 with all numeric steps filled in (C88, C89, C92): induction over the calls; a placed
  frame has the true pose because the consensus pose fits points that are true (C88), a start is true (C92), the
  optimisation is at rest (C85, C90), filters only remove. Found direction: with the true pose all tests pass.
* **C94** `observation_loss` (`Model/SfmLoss`) against the relation `Misfit`, which is shown to be a function; its
  rank is the key used by C10, so ties and what is not a number are covered. Exact observations have loss zero by the
  epipolar constraint (C41, C53) and by the triangulator's contract. `C94_exact_wins` needs the loop invariant that the
  first landmark is unchanged.
* **C95** `Lemmas/SfmPoses`: a property of poses that all numeric steps keep is kept by every call (one lemma per
  operation, no consistency of the tables needed). Here it is used for rigid motions, with the numeric steps filled in
  (`geoJudge`, `threeViewPoses`, `constrainPose`, `startGeo`). `C95_pose_data`: the hypotheses of C59, C87, C88, C89 and
  C94 about the state hold after any calls.
* **C97** `Model/SfmFrame`: `kps_descriptors` from the extraction of C32/C78, `calibrate` of C39 and the colour lookup of
  C57. `C97_state` joins it with C95: the state has the form assumed by C59, C87, C88, C89 and C94 after any calls on
  frames made from pictures.
* **C100** `Model/SfmWithout`: the observations left are, by C07, a permutation of those of the landmark after `remove_view`,
  with the same poses and bearings; the angle condition does not depend on their order (C59).
* **C101** `Model/Sandbox`: the loop over pictures as a function from the content of the data file to its next content and a
  log of events. Induction over pictures and runs with the invariant `Sound` of C82/C83; normalising and exporting do not
  panic by C17 and C19. Settings may differ from run to run.
* **C110** `Model/FloatGraph`: the numeric parts of `constrain_view`, `normalize_reconstruction` and of the relative scales over
  floating point numbers, with the tables of `Model/SfmOps`. The translation of each of the six-number vectors contains products
  with all numbers of the three poses, so anything that is not finite reaches it (`bad_delta`), and sums and products keep it;
  the test for finite numbers then fails. `C110_round` lifts this to a round of `apply_constraints`. `C110_unrounded_*` tie the
  model to `Model/PoseGraph`, `Model/SfmGeometry` and `Model/SfmStartGeo`.

### akaze

* **C21** Permutation proof through multiplication modulo a prime. n = 1 diverges/panics: witness.
* **C22** Trigonometric sum Σ 1/cos² by the roots of a polynomial.
* **C23** Level allocation as a double loop; sizes by induction over the levels.
* **C24** Padded/chunked implementation refined to the clamped-index specification.
* **C25** False for odd sizes as stated (witnesses), exact for even sizes.
* **C26, C27** Grid functions and finite sums over any ordered field.
* **C28** Histogram model; percentiles; flat images and zero thresholds give 0: witness.
* **C29, C30** Candidate scan with caches, for any response image; C30 is false (witness).
* **C31, C32, C76, C77, C78** Descriptor bits against a specification that names the compared
  cells; the whole extraction as a composition of total functions.
* **C69, C70** Kernel sums and moments. C70 is false at scale 1.
* **C71, C72** Spectral theorem for the diffusion operator and a factorisation of the product
  of the steps.
* **C73** The response of images that are quadratic polynomials. False at scale 1.
* **C74** The Newton step on quadratic functions.
* **C75** Sums over sectors. False for gradients of direction 0.
* **C79** Every stage commutes with a change of brightness and contrast; composed over the
  whole extraction.
* **C96** `Model/Load`: `from_dynamic` after the gray conversion, with an arbitrary rounding that is monotone, exact at 0
  and 1 and accurate to 2^-25. `C96_depth` needs no accuracy: both quotients are the same number before rounding.
* **C98** `Spec/Symmetry`, `Lemmas/Transpose`, `Lemmas/Mirror`: each stage from blurring to the responses is shown to
  commute with transposition and mirroring, for the pixel functions of C24, C25, C26 and C70; the contrast factor because
  its histogram does not depend on the order of the pixels. Places come from the margin of keypoints, which is larger than
  the part of the border where the responses differ; the margins on the left and right differ by a pixel, but the margin is
  irrational, so no keypoint lies between. `Props/SymmetryRefine`: the step of the refinement
  is turned over with the nine values it uses; the sampled gradients are the turned over ones.
* **C99** `Model/Parallel`: programs with threads as trees of atomic actions with a small-step semantics; the parts of akaze
  that differ with the feature `rayon`, with arbitrary splits of the parallel iterators. A program without races (actions of
  joined closures commute) ends like the sequential one for every schedule (`C99_schedules`, by the diamond of commuting
  actions); each stage has none, and the sequential stage is the model of C78, so `C99_extract` is an equivalence.
* **C102** `Model/FloatArith`, `Model/FloatAkaze`: the whole extraction over an abstract type of floating point numbers, whose
  operations round any way that is monotone and exact for 24-bit numbers (`Ieee`). Pixel values are arbitrary, so the
  proof is about the values that decide on indices, sizes and steps: those of keypoints are bounded through rounding
  (comparisons that a NaN fails, margins of at least a pixel), those of levels by the accuracy of `powf`, casts by saturation.
  Beside it the numbers with 24 bits rounded down as a concrete case, with a picture of NaNs.
  `C102_unrounded` ties this model to the one over the real numbers (C23, C24, C28-C32, C69-C79): stage by stage, with
  operations that do not round, both give the same levels, images, keypoints and descriptors.

### Geometry

* **C33–C37** Real 3-vectors and explicit matrices. C35 and C37 are false as documented
  (witnesses and partials).
* **C84** The logarithm against Rodrigues' formula, for all rotations but half turns; there it is
  false (witness).
* **C38–C40** Field computations; C39 false at zero distortion and on the optical axis, C40 false.
* **C41–C43** Explicit 3x3 matrices with the SVD contract.
* **C44–C46** Explicit polynomial identities; C46 false (row offset), with the exact set of
  coincidences.
* **C47–C49, C63–C65** Field computations and loop invariants; Newton iteration on cubics by
  monotonicity and convexity.
* **C50–C56, C66–C68** Vector algebra over the reals. C52 and C54 are false as stated.
* **C91** The residuals share the linear system of C51; its null space is the point, or a direction for
  parallel bearings. False for the latter (witness). Reprojection errors against the relation `ImageOf`.
* **C103** `Model/FloatTwist`: the whole three-point solver over the floating point numbers of C102. NaN and infinities absorb
  sums and products, so an input that is not a number makes two coefficients of the cubic so, and their quotient NaN;
  from there every comparison fails. Counting for the four places of the array, monotone rounding for the signs of the
  depths, induction over the steps for the refinement. Beside it: numbers that are not rounded satisfy the same
  assumptions, and with them the program returns each pose of the exact model, function by function.
* **C104** `Model/MeanMean`: the last triangulator. The distance to a ray along the mean ray is a quadratic polynomial
  whose minimum is the computed number; for equal distances the observed point is on the mean ray.
* **C105** `Model/FloatGeom`: cv-geom over the floating point numbers of C102. Infinities and NaN are followed through the
  vector operations; where a check of the code stops them nothing is returned. The loss that is infinite is computed with
  numbers of 24 bits. With numbers that are not rounded the same programs are the exact models.
* **C106** `Model/FloatPinhole`: cv-pinhole over floating point numbers. Each rounded operation adds its error to those of its
  arguments (`err_step`); the length of the bearing drops out of the projection, so its error does not count
  (`err_quotient`). The bounds are checked on numbers of 24 bits that are rounded down (`ExFloat.accurate`).
  `C106_k1_round_trip` (`Spec/FloatDistort`, `Lemmas/FloatDistort`): undoing the distortion solves a quadratic equation whose
  solution is written as a difference of nearly equal numbers; its error is u / |κ| (`change_error`), and the exact solution
  as a function of κ has a slope of at most 4 (`exactChange_near`).
* **C107** Under the other rotation (a half turn about the translation) the depths of a point have opposite signs, so it is
  in front of one camera only; if the two depths are equal its bearings become opposite and the eigenvector is at infinity
  (`residual_opposite`). With the translation reversed both depths change sign. The residual counts the cameras the point is
  behind (`C91_camera_exact`).
* **C108** `Model/FloatOptimize`: the optimisers of cv-optimize over floating point numbers. `C108_unrounded_*` carry the exact
  loops over by a relation between the states (`foptimizeLoop_num`; `f64::INFINITY` is the missing best value). A NaN bearing
  makes every part of the gradient either NaN, which `Se3TangentSpace::new` replaces by zero, or zero because no point is
  found (`nan_delta`, `nan_gradients`). A step of length zero multiplies by the identity matrix, which keeps every finite value
  (`step_zero`). A number that is not finite spoils its column in every product (`bad_isoMul`).
* **C109** `Model/FloatResidual`: the three residuals, the tests of landmarks and the filter of observations over floating
  point numbers. Anything that is not finite in a pose or a point makes a coordinate of the transformed point not finite, and
  dividing by its length then gives NaN (`transform_nan`); NaN spreads to the residual and every `<` with it is false.
  `C109_unrounded_*` tie the model to `Model/Residual`, `Model/Essential`, `Model/SfmFilter` and `Model/SfmStartGeo`.
* **C111** `Spec/FloatRounding`, `Lemmas/FloatRounding*`, `Props/FloatRounding*`: rounding errors of the functions of `Model/FloatResidual` and of
  `floss`. Sums of three and four products are within a multiple of `u` of the exact ones (`val_sum3`, `val_sum4`); a length and a
  direction of a vector known up to `6 ε r` are within `16 ε r` and `24 ε` (`norm_near`, `direction_error`). In the epipolar loss
  rounding may choose the other branch; the two cross products then have nearly the same length (`chosen`), and both branches
  divide the same triple product by it, so the loss is still near (`loss_branch`). `Props/FloatRoundingExample` instantiates every
  theorem with numbers of 24 bits.
* **C112** `Spec/FloatDrift`, `Lemmas/FloatDrift*`, `Props/FloatDrift*`: matrices near rotations. `Near e F X` bounds the operator norm of the
  difference, so errors of products add up (`Near.mul`, `product_error`) instead of being multiplied by a constant, which bounds on the
  entries would not give. `C112_steps` is by induction on the number of steps. For the loops of the optimisers and of the graph
  optimisation an invariant graded by the number of rounds (`foptimizeLoop_graded`, `optimizeLoop_graded`) carries the bound. The
  exponential is bounded entry by entry (`App`, `axisAngle_error`) and compared with the exact one by `rodrigues_near`.
  `Props/FloatDriftExample` has a camera moved a hundred times with numbers of 24 bits, a turn by seven radians, and the loops without
  rounding (there e = u = 0).

## 5. Disagreements found between documentation/intent and code

Each line names the theorem that proves it of the model.

* C09 `merge_landmarks` is said to keep the better of two observations from one view; it panics
  if the landmarks share a view (`C09_merge_panics_iff`).
* C13 an initial number of zero features makes registration loop for ever
  (`C13_zero_setting_never_ends`).
* C14 registration panics if a feature has fewer than three candidate landmarks
  (`C14_registration_panics`).
* C16 removing a view with a non-finite update during optimisation makes a later iteration panic
  (`C16_optimisation_can_panic`; `C16_removed_neighbour_panics`: always, if a view that is kept has a constraint with it).
* C19 face indices are cast to `i32` and wrap after 2³¹ vertices (`C19_false`).
* C21 one step cannot be reordered: underflow (`C21_one_step`).
* C22 very small times give no step at all (`C22_tiny_time`).
* C23 images with a side below 40 pixels panic (`C23_small_image`), many sublevels make allocation
  fail (`C23_many_sublevels`), flat images divide zero by zero (`C23_flat_image`).
* C25 half sizing ignores or miscounts the last row or column of odd sizes
  (`C25_odd_height_ignores`, `C25_odd_width_ignores`).
* C28 the contrast factor can be zero (`C28_zero_factor`, `C28_flat`).
* C30 two close keypoints of neighbouring levels can both survive (`C30_false`).
* C35 the inverse of a tangent does not rotate the translation (`C35_inverse_fails`).
* C37 the last row of the pose Jacobian is wrong (`C37_jacobian_last_row_wrong`).
* C39 the principal point does not survive the removal of distortion
  (`C39_principal_point_lost`).
* C40 the principal point of centred intrinsics is not the centre (`C40_not_centered`).
* C46 the five-point solver reads its coefficients one row too early (`C46_recovered_partial`).
* C48 the root zero of a quadratic is lost (`C48_zero_root_lost`).
* C50, C53 rays that meet at more than a right angle are rejected
  (`C50_wide_angle_rejected`, `C53_wide_angle`); the second camera is not checked
  (`C50_behind_second_camera`).
* C52 the cheirality test measures from the origin of the world instead of the camera
  (`C52_front_rejected`, `C52_behind_accepted`).
* C54 three-view gradients find nothing for consistent configurations (`C54_never_found`).
* C55 the single-view L1 optimiser divides by zero if all landmarks are at infinity
  (`C55_l1_infinity`).
* C57 the default colour is returned although the neighbourhood is inside the image (`C57_false`). A coordinate that is
  NaN passes all comparisons: the colour is white instead of the default (`C57_nan_row`, `C57_nan_white`), and in an image
  with one column memory behind the last pixel is read (`C57_nan_reads_false`).
* C58 truncation makes `u8` samples up to two grey levels too dark (`C58_colour` is the bound).
* C61 merging reconstructions loses a landmark shared with the link view
  (`C61_merge_loses_shared_landmark`).
* C63 the cubic root finder starts with NaN if b² = 3c (`C63_nan_iff`), and does not come near the root if its second
  step divides by the slope of a nearly flat inflection point (`C63_flat_not_found`).
* C64 P3P finds no pose for symmetric configurations (`C64_symmetric_not_found`).
* C70, C73 derivative filters of scale 1 are not normalised (`C70_ramp_one`, `C73_scale_one`).
* C75 gradients of direction zero are in no sector (`C75_false`).
* C80 the number of recent frames to match counts the frame itself (`C80_recent_counts_itself`).
* C81 a pair of options with too few matches in different directions ends the search for a start
  (`return None`; the message says only this match is rejected), although another pair would do
  (`C81_gives_up_false`). A minimum of zero scales can panic (`C81_no_scales_panics`). A comment
  there says the maximum cosine distance is 2.0 so that every match passes; the code passes 1.0.
* C82 with a registration minimum below three, a frame with one feature can be incorporated and
  makes a later `add_frame` panic (`C82_small_minimum_panics`).
* C84 the logarithm of every half turn is zero, since nalgebra takes the axis from the skew part
  (`C84_half_turn_lost`, `C84_backwards`): a camera asked to turn round is not turned at all.
* C86 `constrain_view` says it returns the average over the constraints; it returns their sum times
  the rate. A rate above two thirds makes even a single constraint diverge
  (`C86_large_rate_diverges`, `C86_rate_one_diverges`).
* C87 the filter of observations is not idempotent: what it leaves is not judged again. Of three
  observations it can remove one and leave two that the next call separates, although both see the
  point exactly, because the test for two observations rejects bearings more than a right angle
  apart (`C87_second_pass`).
* C90 `try_merge_reconstructions` moves the views of the source with the motion between the two poses
  of the common frame, without a scale. Reconstructions have different units of length, so merging two
  true ones gives a false one (`C90_units`, `C90_units_false`).
* C91 the residual of the true relative pose for parallel bearings (a point at infinity) is 2, the worst
  value, for one of the two signs of the eigenvector (`C91_camera_far_worst`): `from_homogeneous` corrects
  the sign only if `w` is negative.
* C92 the ratio of the units of the two motions is computed only from matches that pass a test which uses the
  motions as if they had the same unit; the comment says the test should pass regardless (2.0), the code passes
  1.0. Exact data can therefore fail to start a reconstruction depending on a meaningless unit
  (`C92_unit_matters_false`).
* C94 `merge_landmarks_dedup` compares losses with respect to two different points. `C94_best_false`: it
  keeps an observation that contradicts the merged landmark and splits off the one that fits exactly.
* **C96** The documentation of `from_dynamic` promises values between 0 and 1; pictures with floating point values are
  taken over as they are (`C96_range_false`).
* **C98** Turned over pictures do not have the same responses at the border (`C98_transposed_border_false`), and mirrored
  pictures of odd width do not have the mirrored half size (`C98_mirrored_odd_false`). The orientation of a keypoint is not
  turned over (`C98_orientation_false`), because gradients exactly to the right are left out (C75). Which of several near
  keypoints survives depends on the direction of the search, even their number does (`C98_mirrored_survivors_false`,
  `C98_transposed_survivors_false`): a consequence of the comparison with the first near keypoint only (C30).
* C100 the minimum number of observations is ignored when a view is left out (`C100_few_false`).
* C103 the refinement of the depths turns positive depths into NaN when a step divides by zero
  (`C103_refine_gives_nan`).
* C104 the mean-mean triangulator does not return the point that all cameras see exactly (`C104_exact_false`).
* C105 the epipolar loss, meant to be at most 1, can be infinite for finite inputs (`C105_loss_infinite`); the refining
  triangulator can return a point that is NaN (`C105_sine_not_finite`).
* C106 `CameraIntrinsicsK1Distortion::uncalibrate` divides 0 by 0 at the principal point and for k1 = 0
  (`C106_k1_centre`, `C106_k1_zero`); sideways bearings give infinite or NaN pixels instead of `None`
  (`C106_sideways`).
* C108 `single_view_simple_optimize_l1` returns a pose of NaN if all points are at infinity: the sum of no weights is zero and its
  reciprocal times the zero gradient is NaN (`C108_points_at_infinity`).
* C109 `filter_non_robust_observations` removes observations whose distance is greater than the limit; a distance of NaN is not, so
  observations with NaN are kept (`C109_filter_keeps`), while every other test rejects them.
