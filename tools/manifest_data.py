STATUS = {
'C01': ('proved', 'exact integers; 64-bit sums of 32-bit fields cannot overflow'),
'C02': ('proved', ''),
'C03': ('partial', 'false of the code: normalizeSecNSecSigned uses > instead of >=, fromSec leaves negative nanoseconds (counterexamples proved). Proved: totals are always exact, and normalised unless nanoseconds are a positive multiple of 10^9.'),
'C04': ('proved', 'differences for times below 2^31 s (the range operator+ can return); wrong outside that range (counterexample proved)'),
'C05': ('partial', 'false in the real little-endian build: #ifdef BOOST_ENDIAN_BIG_BYTE is always true with Boost.Predef, so 5 is read back as 0; writing INT64_MIN is undefined (both counterexamples proved). Proved for builds whose symbol matches the machine, across machines and stream flags.'),
'C06': ('partial', 'framing and width check proved for every build; value sequences for builds whose endianness symbol matches the machine. 40000 read into int16 gives -25536 without an exception (counterexample proved).'),
'C13': ('proved', 'every element count and history; absence of unbounded recursion and out-of-range access included'),
'C41': ('partial', 'false of the code at t_max when the last knot segment is empty: all weights are 0 (counterexample proved). Proved for every order, nondecreasing knots and time otherwise; also derivative weights sum to 0.'),
'C42': ('partial', 'equality with the Cox-de Boor spline proved for every order/knots/time outside the 1e-10 snapping zone or inside a non-empty last segment; false at t_max with an empty last segment (counterexample proved).'),
'C43': ('partial', 'range, window and raise conditions proved for every time; bracketing fails only for times within 1e-10 of t_max outside the last segment (counterexample proved).'),
'C44': ('partial', 'false of the code: the loop is bounded by the size of the old knot vector (accepts a decreasing sequence on a fresh spline, reads out of range on a longer one; counterexample proved). Proved when old and new lengths agree, and the count checks always.'),
'C45': ('partial', 'false of the code for non-uniform knots: basis matrices are not removed (counterexample proved). Proved for uniform knots, all derivatives.'),
'C46': ('partial', 'n-th derivative inside every segment; integral antisymmetric and additive always, exact up to the dropped remainders (error bound 2e-16*B, exact when none is dropped; counterexample for exactness proved).'),
'C47': ('proved', ''),
'C17': ('partial', 'everything proved except strictness of the slopes, which is false of the code: collinear samples are all kept (counterexample proved).'),
'C18': ('proved', 'exact arithmetic over any linearly ordered field'),
'C19': ('partial', 'false of the code: the midpoint index is stale when the hull collapses to two points (counterexample proved: out-of-range read). Proved for three or more hull points, and for two with index 0.'),
'C20': ('proved', ''),
'C21': ('proved', 'clock readings are inputs; accumulator statistics other than the count are not modelled'),
'C35': ('proved', 'error-term dependency lists are inputs'),
'C36': ('proved', 'histories in which every add returned; batches built through their own interface and not modified while live'),
'C37': ('partial', 'false of the code: a rejected batch leaves variables, counters and groups behind (counterexamples proved for a group clash and for a shared error term). Proved in every state: live batches, saved values and parameters unchanged; a null batch changes nothing.'),
'C61': ('partial', 'proved for permutations and wrong lengths; false for other index vectors: [0,0] never returns, [1,5] raises after swapping, [1,1] is accepted (counterexample proved). Elements are kept in every case.'),
'C62': ('partial', 'proved for histories without clear; false after clear, which keeps saved values of forgotten variables (counterexample proved).'),
'C38': ('proved', 'optimiser and linear solver are an oracle; histories in which every addBatch returned. Also the exact acceptance rule and the exact layout after a rejection.'),
'C39': ('proved', 'including the start column handed to the linear solver'),
'C63': ('partial', 'false of the code (three counterexamples proved); proved: a raising call never changes the stored estimates.'),
'C09': ('partial', 'proved for every content below 4 GiB per entry, any selection of names on both sides and any target archive; false for larger matrices whose shape still fits the 32-bit fields (counterexample proved).'),
'C10': ('partial', 'false of the code: clear(name) keeps strings, setScalar/setVector/createMatrix keep a string of the same name (counterexamples proved). Proved for every other history.'),
'C11': ('partial', 'proved for setScalar, setString, setMatrix, setVector; false for createMatrix, which does not check the name (counterexample proved).'),
'C12': ('partial', 'false of the code: sizeMatrices counts strings (counterexample proved). Proved: sizeStrings right; the others exactly when the two counts agree.'),
'C64': ('partial', 'false of the code: append writes nothing (counterexample proved). Proved: the existing entries are kept.'),
'C65': ('partial', 'false of the code: reading past the end is not detected (counterexample proved). Proved: a wrong start byte is rejected.'),
'C14': ('proved', 'grids of at most 64 cells (larger ones are undefined, C16_too_large)'),
'C15': ('proved', ''),
'C16': ('proved', ''),
'C66': ('partial', 'proved for 16h5, 25h7, 25h9, 36h9 and 36h11; false for 16h5_other and 36h11_other (counterexample proved).'),
'C67': ('proved', ''),
'C22': ('partial', 'cost monotonicity proved for every policy that reverts; that the variables left behind have the reported cost is proved unless a zero-dimensional active variable was overwritten before (counterexample proved).'),
'C23': ('proved', ''),
'C24': ('partial', 'tiling of active variables and error terms proved; false for inactive variables: a deactivated variable keeps its old index (counterexample proved).'),
'C25': ('partial', 'segments and revert proved for variables of positive dimension; false for zero-dimensional ones (counterexample proved).'),
'C68': ('partial', 'false of the code for reverting policies (counterexample proved); proved for non-reverting ones.'),
'C69': ('partial', 'false of the code after a solver failure (counterexample proved); proved while the solver does not fail.'),
'C29': ('proved', 'every interleaving; number of terms fits an int; exact sums; undefined for no terms and several threads (C29_defined)'),
'C70': ('partial', 'false of the code: with several threads the exception is sliced to std::exception (counterexample proved). Proved: an exception is never swallowed and none is invented.'),
'C30': ('partial', 'proved for every history in which no addErrorTerm raised; false after a raise in a debug build (the rejected term stays) and removing a variable mentioned twice by a term uses the deleted term (counterexamples proved).'),
'C26': ('proved', 'exact arithmetic; block indices told apart by active variables (what C24 establishes) and unchanged during use; a container is not added to itself.'),
'C33': ('partial', 'Proved for writing blocks, element access, dense conversion, transpose, addition, matrix and vector products, scaling and slices. False for transpose and multiply into a destination that already holds blocks: counterexamples proved, with the exact result proved instead.'),
'C34': ('partial', 'Full export, values-only export, symmetric export from the upper triangle and block structure proved. fillCCS with upperTriangle is proved for matrices that store no block below the diagonal; a block below the diagonal is exported in full (counterexample proved).'),
'C72': ('proved', 'Both modes, for a freshly allocated destination.'),
'C71': ('proved', 'One term and the whole block Cholesky system, with M-estimator weights; the square root is any function with sqrt(w)^2 = w on the weights that occur.'),
'C73': ('partial', 'False of the code: after a solve the diagonal has grown by c^2 - c (counterexample and exact effect proved). That the damped system is the one solved is proved; restoration is proved for conditioners with entries 0 or 1.'),
'C74': ('partial', 'False for the block Cholesky solver, which multiplies with the stored upper triangle (counterexample on a built system; exact value proved). Holds if the system is diagonal.'),
'C27': ('partial', 'Any history of Jacobian appends and diagonal pushes, updates and pops keeps the arrays well formed with the intended dense meaning, and dense expansion, access and products agree with it. False for clear (pointers sized by rows), for taking over a dense matrix while a diagonal is pushed and for init of a used object: counterexamples.'),
'C28': ('proved', 'Push, any number of updates, pop is the identity on the object; the pushed matrix means [M diag]; misuse raises.'),
'C75': ('partial', 'Proved for every order of evaluation when each term fills its container with exactly its active variables; an error term that leaves out an active variable gets its values in the wrong rows (counterexample).'),
'C07': ('partial', 'For every interleaving: jobs are taken from the queue in scheduling order, each is executed at most once, none is lost, and the workers finish all scheduled jobs in a bounded number of their steps when not stopped; with one worker start and completion order equal the scheduling order. With several workers the call of a job can be overtaken between taking and calling it: counterexample.'),
'C08': ('proved', 'For every reachable state of every interleaving, also with stop and spurious wakeups: a returned call has all earlier jobs finished, a sleeping call has work left that will wake it.'),
'C76': ('partial', 'Proved: no job is started after stop; when all workers returned nothing runs and the rest is still queued in order; the destructor makes progress and waits for the workers that have begun. False in the code: join() can hang (flag set and notified without the mutex), and the destructor can return before a created worker has registered: counterexamples.'),
'C31': ('partial', 'Proved for no estimator, Cauchy and Huber. Geman-McClure: positive and non-increasing but the weight at zero is 1/sigma^2 (valid iff sigma^2 = 1); Blake-Zisserman: in (0,1), non-increasing, equals wCut at the cut, but never 1 at zero. Both deviations are proved.'),
'C77': ('partial', 'The cost is the squared norm of the weighted error for all estimators; it grows with the error for no estimator, Cauchy and Huber; proved to fall beyond sigma^2 for Geman-McClure and from some error on for Blake-Zisserman.'),
'C32': ('partial', 'Dog leg: for every history of calls without a failure of the linear solver the step is on the dog-leg path and not longer than the radius; after a failure the next call returns the vector of the failed solve (counterexample). Levenberg-Marquardt: damping positive for every history.'),
'C78': ('partial', 'Levenberg-Marquardt: proved. Dog leg: proved when the rejected cost is above the cost before the last accepted step; otherwise get_dJ compares with the wrong cost and the radius can grow (counterexample).'),
'C79': ('partial', 'Dog leg: proved under the same condition, otherwise a stale Gauss-Newton step is used (C78_dogleg_counterexample). Levenberg-Marquardt: proved for the first call and after accepted steps with positive rho; after an accepted step with unchanged cost the system is not rebuilt (counterexample).'),
'C40': ('partial', 'Proved for every number of dimensions and cells: a point in range lies in the cell of its index, out of range raises; the linear index is a bijection; stepping visits every cell once and stops; cells are independent; too large indices raise. False in the code: negative indices are accepted (out of bounds read), centres of a partial last cell can be out of range, integral centres are rounded into another cell: counterexamples.'),
'C48': ('proved', 'All quaternions; unit quaternions where a rotation matrix is involved.'),
'C49': ('proved', 'Every rotation matrix; every unit quaternion is recovered up to its sign.'),
'C50': ('proved', 'Every transformation built by the constructors and operations; exact arithmetic.'),
'C51': ('partial', 'Proved for rotation vectors of length at least the threshold and below a half turn, and for every rotation matrix except half turns. Half turns are lost (mx2AxisAngle returns zero): counterexample.'),
'C53': ('partial', 'The matrix is the rotation about the axis by the angle for angles above the threshold and zero; every negative angle gives the identity (counterexample), angles below 1e-14 too.'),
'C52': ('partial', 'Rates and Jacobians proved for yaw-pitch-roll, ZYX, ZXY and Rodrigues parameters at every value, also at the singularities. For rotation vectors rates and Jacobian are proved above the threshold 1e-14; at zero the code evaluates 0/0.'),
'C80': ('partial', 'Proved for zero and for vectors from the threshold 2^-13 on; below it the length error is that of C81.'),
'C81': ('partial', 'Proved from the threshold 2^-13 on. Below it the exponential is too long by less than theta^4/24 (wrong sign in the series) and the logarithm too short (integer quotient 1/6): both deviations proved.'),
'C82': ('partial', 'Proved for all angles in range and all rotation matrices except gimbal lock, where the rotation is lost (counterexample).'),
'C83': ('partial', 'Quaternions: proved. Rotation vectors: inverse proved between the threshold 1e-14 and a full turn.'),
'C84': ('partial', 'Proved when the turn between the ends and its elapsed fraction are not below the threshold 2^-13 of the exponential and the times are at least 1e-14 apart.'),
'C85': ('partial', 'Rotation proved for all parameters; recovery proved for zero and lengths between 1e-14 and 1e14; half turns come back as the identity (counterexample).'),
'C54': ('proved', 'Both directions, for every distortion whose undistort inverts distort at the point concerned; instantiated without distortion (C54_no_distortion) and for the field of view distortion (C54_fov). The equidistant distortion does not meet the hypothesis at the image centre (C54_equidistant_counterexample), see C60.'),
'C60': ('partial', 'radtan and equidistant: an exact solution is a fixed point where the Jacobian is regular and the update is defined. False in the code: at the image centre the equidistant undistort returns NaN, and radtan where the Jacobian is singular.'),
'C57': ('proved', 'Both directions for every mirror parameter >= 0 and every distortion whose undistort inverts distort at the point concerned; unconditional without distortion (C57_no_distortion). The keypoint direction excludes only the rim of the reachable circle.'),
'C86': ('proved', 'Both directions, for all alpha in [0,1] and beta > 0; the keypoint direction excludes only the rim of the reachable circle.'),
'C87': ('partial', 'Point to ray for xi >= -2w (w = alpha/(1-alpha) or its inverse); keypoint to ray to keypoint whenever the projection accepts the ray. False in the code: for xi < -2w the field of view test accepts points that are projected to the wrong side (C87_ray_counterexample), and for xi > 0 it rejects rays of valid keypoints (C87_keypoint_counterexample).'),
'C56': ('partial', 'Holds at non-zero scale for all four projections, with the pinhole overload that returns a Jacobian as the exception: it ignores the sign of the scale for the validity flag. False in the code for points at infinity and for that overload.'),
'C58': ('partial', 'The index numbering is a bijection and lookup agrees with it. Reported grid coordinates are in the order column, row instead of row, column; getPointDataPointer has an inverted assertion, so it raises on every valid index, reads out of bounds on invalid ones, and no design variable container can be built.'),
'C59': ('proved', 'Refinement to a map from indices to points, for every history of calls including raising ones.'),
'C88': ('partial', 'All three boards: positions and distinctness proved. The axes of the checkerboard are swapped with respect to its documentation (counterexample).'),
'C89': ('partial', 'Proved for an empty flag vector, as the detector passes it. A reused flag vector keeps stale flags (counterexample).'),
'C90': ('proved', 'Exact set of removed corners, survival of at least one corner and a Chebyshev bound.'),
'C91': ('partial', 'Corners, success and pose on success proved. On failure a reused observation keeps the pose of an earlier image (counterexample).'),
'C92': ('partial', 'Radial-tangential: general bound under a regularity condition (C92_radtan_partial), and unconditional bounds 1e-14 / 1e-13 for two stated ranges of parameters and points. Equidistant: general contraction bound, and 1e-8 rad up to 45 degrees for coefficients up to 1/20. Missing: parameters and points outside these ranges, where the iteration can diverge (C60_radtan_counterexample).'),
'C93': ('proved', 'Every node kind of the model, shared nodes with their cached members, any interleaved evaluations and Jacobians of the same nodes; also through the Jacobian container with only the active variables (C93_error_term). Rotation parameters need the parametrisation to be regular, which is proved away from its singularities (C93_rotation_parameters). The evaluation before the Jacobian is needed: C93_stale_counterexample.'),
'C94': ('proved', 'Spline nodes are leaves of the same trees. Sufficient: states that agree on the reported variables give the same value. Complete: every block of the Jacobian belongs to a reported variable.'),
'C95': ('partial', 'Proved for every history of updates and reverts. False after the public set of rotations, which leaves the cached rotation matrix behind (C95_set_counterexample).'),
'C96': ('partial', 'Points, scalars, homogeneous points: full. Rotations: increments of length below a full turn outside the small-angle branch (C96_quaternion_partial). False in the code for the mapped quaternion (C96_mapped_counterexample).'),
'C97': ('partial', 'Points: full. Transformations: rotation errors between 1e-10 and pi - 1e-10. False in the code inside the dead zone around the prior, where the rotation error is constant but the Jacobian is not zero (C97_dead_zone_counterexample).'),
'C98': ('partial', 'pose, body-frame values, linear and angular velocity, linear acceleration proved for all families (rotation vectors above the 1e-14 threshold). False of the code for angularAccelerationBodyFrame: it omits the term with the derivative of the S matrix (counterexample proved; the exact difference is C98_angular_acceleration_partial). Pose round trip for Euler angles away from gimbal lock.'),
'C99': ('partial', 'pose, inverse, orientation, inverse orientation, transformed vector, linear acceleration, body-frame angular velocity and acceleration proved. False of the code for angularVelocityAndJacobian: it returns the negative of angularVelocity (counterexample proved; its Jacobian is that of the negative, C99_world_rate_partial).'),
'C100': ('partial', 'all fixed-time nodes proved except the acceleration in the body frame, whose Jacobian ignores the orientation (counterexample proved). Time expression: margins, coverage and the Jacobian with chain rule for segments longer than 2e-10; without chain rule it reads outside its matrix whenever the node does not start at the first coefficient (proved for all such nodes).'),
'C101': ('proved', 'dense, sparse and diagonal versions proved equal, and equal to the integral of the weighted squared derivative of the Cox-de Boor curve, for all well-formed splines.'),
'C102': ('partial', 'value and rhs() proved. The normal equations are exact when the active coefficients are numbered in the order of the coefficients (C102_normal_equations_partial); with another numbering the coupling entries are added below the diagonal where the solvers do not read (counterexample proved).'),
'C103': ('partial', 'False of the code (C103_counterexample): the terms are built with d = R c and measure the curve with coefficients 2 c - p, with c the coefficients at creation and p those before the last update (C103_actual). They agree with the motion integral at creation (C103_at_creation_partial). The factors from the singular value decomposition and the Jacobians with respect to p are proved.'),
'C104': ('partial', 'updates, reverts and setting proved. The minimal difference uses the value before the last change: false after an update (counterexample proved), right after construction, revert and remapping.'),
'C105': ('partial', 'Jacobians, reported variables, choice of the measurements, values of all five predictions and both C++ classes proved. The gyroscope prediction is the rate of the orientation. The accelerometer prediction is the specific force at the origin of the body (C105_reference_accelerometer); away from it there is the error given in C105_accelerometer_partial (C105_accelerometer_counterexample), because the angular acceleration of the pose spline is not the derivative of the angular velocity (C98). The C++ class AccelerometerErrorEccentric selects the axes in the wrong coordinates (C105_eccentric_counterexample).'),
'C106': ('partial', 'Proved for pinhole, omnidirectional and double sphere cameras with every smooth distortion, jointly for all variables. Extended unified cameras need fu = fv (see C55). Equidistant and field of view distortions inherit the restrictions of C55 near the centre. A point that cannot be projected makes the error read an unwritten keypoint (C106_unprojectable_counterexample).'),
'C107': ('partial', 'Update, dimensions, Jacobian for homogeneous points, offset in time and parameters are proved for all cameras and choices. For Euclidean points the stacked Jacobian is wrong when projection and distortion are both estimated (the block starts at a row instead of a column): C107_euclidean_counterexample; the other choices are C107_euclidean_partial. A refused update of the FOV parameter leaves the camera with the refused parameter (C107_fov_update_counterexample).'),
'C108': ('partial', 'Time, order, global shutter and expression are proved. The Jacobian holds up to the rounding to nanoseconds only (C108_jacobian_partial, C108_jacobian_counterexample), raises for an active global shutter (C108_global_jacobian_counterexample), and the offset alone is refused when it is negative (C108_offset_partial).'),
'C55': ('partial', 'Point, intrinsics, distortion parameter, homogeneous point and back-projection Jacobians of the pinhole, omnidirectional, extended unified and double sphere projections and of the radtan, equidistant and field of view distortions (domains stated in the theorems; the parameter of the field of view distortion outside the disc of small radii, C55_fov_parameters_partial). False in the code: the equidistant Jacobian at the image centre is NaN, the field of view parameter Jacobian next to w = 0 and at small radii (C55_fov_parameters_counterexample), the pinhole back-projection Jacobian (diag(1/fu, 1/fv) on the wrong side) and the extended unified intrinsics Jacobian (both rows use fu).'),
'C109': ('partial', 'Proved for objects that do not have more knots than the new spline. On an object with more knots the check of the new knots reads past their end (C109_counterexample).'),
'C110': ('proved', 'The full statement.'),
'C111': ('proved', 'The full statement; the last segment must be at least 1e-10 long, as shorter ones are hidden by the rounding of times to the end. For repeated knots it is false (C111_repeated_counterexample).'),
'C112': ('partial', 'Proved for every order under the assumption that the QR solver is exact, for objects that do not have more knots than the new spline (see C109).'),
'C113': ('partial', 'New end, old end, number of segments and unchanged coefficients are proved under the assumption that the QR solver is exact and the last interval is not empty, for addCurveSegment and, with weight 0, for addCurveSegment2. The curve is unchanged on all but the last order-2 segments; on those it changes (C113_counterexample). With another weight addCurveSegment2 keeps neither end (C113_second_counterexample).'),
'C114': ('partial', 'Proved for exact solvers, nonnegative factors and objects that do not have more knots than the new spline (see C109).'),
'C115': ('partial', 'Proved for matrices with at most 2^31 entries and an exact factor; with 46341 scalar variables the index of an entry overflows (counterexample).'),
'C116': ('partial', 'Proved for an exact QR decomposition, removed variables that are determined and terms on listed variables. Refuted: indices stay overwritten after an exception, the covariance is undefined with more rows than columns, a removed variable that is not determined takes information with it, an unlisted variable is written outside the matrix.'),
'C117': ('partial', 'Proved for exact factorisations: what is minimised is the sum of squares without one orthogonal component, exact if the second group does not act on it. Refuted as stated: reduceLeftHandSide and reduceRightHandSide take one column too many of the rotated matrix (inclusive end index), so information is lost (counterexamples), and with one equation more than unknowns in the first group no step is ever delivered. A rank of an earlier matrix is kept (counterexample).'),
'C118': ('partial', 'Proved for exact factorisations and independent columns of the first group; with dependent columns information is lost (counterexample).'),
'C119': ('partial', 'Without a window proved in full. With a window proved for messages recorded in the order of their stamps; otherwise places in the sorted list are taken for places in the recording (counterexample).'),
'C120': ('partial', 'Proved for every schedule and number of workers if the detector does not throw, with termination. If it throws, a worker dies silently and images are given up without an error (counterexample).'),
'C121': ('partial', 'All the statements are proved. That the views do not depend on the order is proved for images in groups and refuted otherwise (counterexample).'),
'C122': ('partial', 'Proved for every database; the graph is built if the cameras that saw something are numbered from zero. If the first camera saw nothing it is an exception (counterexample).'),
'C123': ('proved', 'The shortest paths and the choice of edges of igraph are arbitrary; transformations are a group.'),
'C124': ('partial', 'The terms are proved in full; the statistics of a corner only for the first camera of the view. For the other cameras they are taken from error terms of the first (counterexample).'),
'C125': ('partial', 'Consistency of views and estimator, the removal rule and a full pass are proved for every behaviour of the estimator. That few corners are removed holds for centred errors only; errors are compared with zero, the deviation is about the mean (counterexample). A restart keeps the removed corners (counterexample).'),
'C126': ('partial', 'Order, origin and conditions of the knots are proved for every history; the exact rule if no knot is dropped. Refuted: an observation at a knot is in no segment, errors are shifted once a knot is dropped, disabled segments are shared between strategies, a lookup can fail, and the last knot is appended twice.'),
'C127': ('partial', 'Acceptance and the round trip are proved. Refuted: results with a negative principal point are not written, a pinhole camera without distortion has no geometry, wrong target parameters are a NameError, names of units collide.'),
'C128': ('partial', 'Proved for messages at equal steps, shifts by a number of steps and motion inside the common time. Refuted at the borders of the common time and with a pause in the messages (counterexamples). The final refinement by scipy is not modelled.'),
'C129': ('partial', 'That the rotations are kept and each vector is the nearest within three turns is proved for all sequences; the true angle is followed for turns about one axis up to three and a half turns. Refuted beyond that, and when a turn comes back to zero (counterexamples).'),
'C130': ('partial', 'Transformations, adjacent baselines, time shifts and the file are proved for chains of any length. Refuted: baselines of cameras that are not adjacent, an old time shift that stays in the file without time calibration, and the pose of a second unit, whose lever arm has the wrong sign and frame (the exact condition for it to be right is proved).'),
'C131': ('partial', 'The exact condition under which the pairs are right is proved. Refuted: with a target seen in parts image points are paired with other corners or the program ends; a pose that is not found ends it; the weight is the inverse of what the option is called; a global shutter calibration changes later ones.'),
'C132': ('partial', 'Proved for all images, shifts and positive paddings. Refuted: without a padding the first and last image are dropped; the printed number counts images that were not used.'),
'C133': ('partial', 'Proved from the script to the observation for every board, start corner and non-degenerate affine view, with one black and one white level, when the spacing is more than half a cell. Missing: the search of quadrilaterals in the image. Refuted under perspective: cells are placed by bilinear interpolation, so a cell can be read in another one (counterexample).'),
'C134': ('partial', 'Boxes, corners and shape are proved for all boards. Refuted: the board looks the same after half a turn exactly if the sum of columns and rows is even, as for the board of the usage message.'),
'C135': ('partial', 'Proved: exactly the closed chains of four successors with the start at a greatest angle are examined; with one strictly greatest angle exactly once. False with equal angles (counterexample: four equal angles, examined four times, the same outline is then listed several times).'),
'C136': ('partial', 'Proved: characterisation of the winding test in general position, acceptance of convex outlines of the right sense, refusal of the others and of self-crossing ones; facts about accepted outlines. False: an outline with a corner at the abscissa -1 (the mark for parallel lines) is refused although the same outline elsewhere is accepted. Darts with one re-entrant corner are accepted (example).'),
'C137': ('proved', 'Objects a cell or more outside of the rectangle are dropped, C137_outside. Exact reals.'),
'C138': ('partial', 'Proved: only detections are reported and a best detection of every identifier is kept; exactly one per group if overlapping is transitive on the detections. False in general: a detection that overlaps two kept ones replaces both and is reported twice.'),
'C139': ('proved', 'The fit needs a positive sum of weights, the direction non-negative weights and two different ends. Exact reals.'),
'C140': ('partial', 'The convolution compares positions in the whole image with the length of a row: from the second row on the first columns are smoothed wrongly (C140_first_columns: they are copies of the first column; C140_counterexample). Proved: all other columns, the range, the kernel.'),
'C141': ('proved', 'The theorem covers every permutation of the list of pairs, hence the stable sort. The magnitudes in the last row and column are zero (C141_border) and bounded for images with values from 0 to 1 (C141_bound).'),
'C142': ('partial', 'Proved for all positive definite matrices and all layouts: the residual, exactness with tolerance zero, descent, and repeated use of one matrix object with changed numbers (C142_exact, C142_descent, C142_reuse). The accuracy holds only up to the absolute bound that the solver takes over from the call before (C142_accuracy_partial): with default settings a second, smaller system is answered with zero (C142_absolute_counterexample). Used for a second matrix without init, the solver mixes the blocks of both matrices or follows dangling pointers (C142_stale_counterexample).'),
'C143': ('partial', 'Proved: the median withstands any minority of bad views (C143_median), the terms and variables of all three problems, exact start with exact data (C143_intrinsics, C143_batch_exact). For two cameras the exact start and the baseline by majority need the rotation of the baseline to be the identity or to have an angle between 1e-14 and pi - 1e-14, where the rotation vector is inverted (C143_baseline_partial, C143_stereo_exact_partial). Near a half turn the component-wise median of rotation vectors fails: two nearly equal baselines give the identity (C143_half_turn_counterexample).'),
'C144': ('partial', 'Proved for sparse Cholesky (C144_sparse_cholesky, all histories). Sparse QR: minimises the undamped problem with the error evaluated last. False of the code: sparse QR ignores the conditioner (C144_undamped_counterexample), solves with the error of a rejected state (C144_stale_error_counterexample), writes through a null pointer if the factorisation fails with normalised columns (C144_null_counterexample); dense QR reads a flag that is never assigned (C144_dense_counterexample). The libraries are parameters.'),
'C145': ('partial', 'Proved: products, inverse, action, sum of points, conversion, normalisation, all vector and number operations, algebraic laws, positive semidefiniteness. Differences of two uncertain points only when the fourth coordinates are certain (C145_point_difference_partial; otherwise false, C145_point_difference_counterexample: the code uses the plus matrix for both). Uncertain plus or minus certain point only when the certain one has fourth coordinate one (C145_certain_point_partial; otherwise false, C145_certain_point_counterexample: the covariance is not scaled).'),
'C146': ('partial', 'Proved: members after any setters, density, cumulative distribution, divergence, for numbers and vectors. False of the code for vectors: a singular covariance is accepted although there is no density (C146_singular_counterexample), and a refused covariance changes the samples, since the factor is stored before the test (C146_refused_counterexample). Eigen is a parameter.'),
'C147': ('partial', 'Proved for numbers after any history (C147_most_likely, C147_grouping). For vectors where the sample spreads in every direction (C147_vector_partial); otherwise the estimator says valid although the covariance is singular (C147_vector_counterexample). Weights that sum to zero divide by zero (C147_zero_weights_counterexample).'),
'C148': ('partial', 'Proved: refusal, density, integral, variance of one number, samples (C148_density, C148_integers, C148_samples, C148_integer_samples, C148_vector_partial). False of the code: mean and median are half of the width, right only for supports that begin at zero (C148_mean_counterexample, C148_integer_counterexample); the covariance of vectors uses the volume instead of the sides (C148_vector_counterexample); integer samples take the ends half as often (C148_integer_samples_counterexample).'),
'C149': ('partial', 'Proved: refusal, density, integral, mean, variance, mode, cumulative distribution, chi square, special functions. The divergence is proved for equal shapes (C149_divergence_partial); for different shapes it is false: the digamma function is taken at the shape of the other distribution, and the result can be negative (C149_divergence_counterexample).'),
'C150': ('partial', 'Proved for all four samplers. False of the code only in a single draw: a first category of probability zero comes up when the draw is exactly zero (C150_categorical_counterexample). The Poisson sample is characterised by the arrivals, the probability of each value is not derived.'),
'C151': ('proved', 'Proved for every sequence of samples (C151_counts, C151_normalized in any dimension; C151_mean, C151_median, C151_mode, C151_variance in one). Exact arithmetic; the mean needs a sample in range and the variance two, otherwise the code divides by zero.'),
'C152': ('partial', 'Proved for sums, differences, products, negations, conversions and quotients of constants (C152_jacobian_partial, C152_plain_jacobian_partial, C152_variable). False for quotients with design variables: the division node passes the factor of the dividend to the divisor and the other way round (C152_quotient_counterexample).'),
'C153': ('partial', 'Proved for 8, 16 and 32 bits (C153_sum, C153_product, C153_quotient, C153_conversions) and for conversions of numbers that are not negative between resolutions (C153_convert_partial). False for negative numbers: that conversion is done in uintmax_t (C153_convert_counterexample). 64 bit numbers, whose intermediate products can overflow, are not covered.'),
'C154': ('partial', 'Proved for sizes below 2^31 and elements the scalar type can hold (C154_matrix_partial, C154_vector_partial, C154_refused, C154_round_trip). False for 64 bit integers passed to a matrix of int, which are cut off without an error (C154_long_counterexample), and for sizes above 2^32, which are cut off too (C154_size_counterexample). Rounding to float and double, byte order and the alignment of the storage are not modelled.'),
'C155': ('partial', 'Masks and matrices: C155_matrix. Marked pixels for masks that have the right size already: C155_overlap_partial. Ratios: C155_ratios (for images with at least one pixel; the code divides zero by zero otherwise). False for masks of another size, such as new ones, which keep what they had (C155_mask_counterexample, C155_mask_unchanged), of the distances, to which the length of the ray is added (C155_sample, C155_distance_counterexample), of keypoints outside the image (C155_outside_counterexample) and of copies of masks, which share their pixels (C155_copy_counterexample).'),
'C156': ('partial', 'Images keep their times and come back complete; in order if all seconds have the same number of digits. False otherwise and false of inertial measurements (counterexamples: string order of names, text written to files opened for bytes, time stamps through a double, stamps below one second).'),
'C157': ('partial', 'Proved for MSF, for OKVIS with pinhole cameras and four coefficients, for ROVIO with pinhole cameras. False of the image size (OKVIS), of the FOV distortion (OKVIS), of topics in which the image name stands earlier, and of ROVIO with camera names that end in the same letter (counterexamples).'),
'C158': ('partial', 'Pairs, poses and rectification are proved; the views of a pair whose second camera is to the right are upside down, and the table of errors of a pair always raises (counterexamples).'),
'C159': ('partial', 'Proved for shutters without parameters; with a shutter parameter the uncertainties are printed beside other parameters (counterexample).'),
'C160': ('partial', 'Pages and figures of the report about cameras and sensors are proved; the figures of the camera report are distinct up to a hundred cameras (counterexample with 101).'),
'C161': ('partial', 'Pairing, reference sensor, messages and file names are proved; several sensors without models crash instead of giving the message, and different bags can give the same names (counterexamples).'),
'C162': ('partial', 'Poses are proved for all chains; the outline for pinhole intrinsics. The outline of omnidirectional cameras is wrong: the mirror parameter is taken for the focal length (counterexample).'),
'C163': ('partial', 'Proved for spectra without zeros; a missing frequency makes the measure not a number (C163_missing_frequency).'),
'C164': ('partial', 'Proved except for empty matrices with dynamic columns in XML archives, single rows cut out of wider images and the track of a keypoint (counterexamples).'),
'C165': ('partial', 'Proved for this version of the classes, except for images of a single row cut out of a wider one; masks of version 0 are misread (counterexample). Sharing of pointers is not modelled.'),
'C166': ('partial', 'Setting, getting, histories, errors and namespaces are proved. Missing: C166_default_counterexample shows that the constant getter with a default writes the default into the tree, also over a value it cannot read; C166_exists_counterexample shows that the test for a name never answers no and throws for names that exist.'),
'C167': ('partial', 'Proved except for three cases: replacing a character by itself does not end (C167_replace_counterexample); replacing from the back replaces an occurrence at the first position that was to be skipped when the number to be skipped is not reached (C167_replace_reverse_counterexample); texts of the right length that are no hexadecimal numbers are accepted as identifiers (C167_identifier_counterexample).'),
'C168': ('partial', 'The round trip is proved on machines that store the high byte first, except for the lowest number of 64 bits (C168_lowest_counterexample). On machines that store the low byte first the test for the order of bytes is always true since the macro is always defined, and every integer below 2^32 is loaded as zero (C168_little_counterexample); integers of eight bytes survive (C168_little_partial). Numbers that need as many bytes as the type can be loaded as other numbers (C168_narrow_counterexample).'),
'C169': ('partial', 'Proved for all trees without left translated unit quaternions and without exponential maps directly over vector expressions. Left translated unit quaternions add no Jacobian (C169_left_translated_counterexample), and over vector expressions the Jacobian of the exponential map leaves out what stands above it (C169_exp_of_vector_counterexample). Points where the exponential map is computed with a series and the logarithm are missing.'),
'C170': ('proved', 'Proved for every decomposition that has the properties Eigen promises (IsSvd, IsEigen); the decompositions themselves are not modelled.'),
'C171': ('partial', 'Proved for transformations that were set from a translation and angles and inverted once. Inverting twice gives another transformation (C171_inverse_twice_counterexample, C171_plane_twice_counterexample; C171_inverses says which), the inverse of an object made from a matrix reads uninitialised members (C171_inverse_of_matrix_counterexample), and after setTransformationMatrix the inverse is stale (C171_inverse_stale_counterexample).'),
'C172': ('partial', 'Proved for every schedule without tryLock. tryLock never fails and takes the mutex away from its holder (C172_try_lock_counterexample); a wait on a condition without the mutex throws and blocks every later call (C172_wait_without_lock_counterexample); a wait with a recursive mutex that is locked twice never returns (C172_recursive_wait_counterexample).'),
'C173': ('partial', 'The maps, the rectangles, the camera matrix and the factory are proved. Source pixels beyond the range of a short wrap around (C173_far_counterexample), a camera without distortion is changed (C173_identity_counterexample), the mask is neither undistorted nor scaled (C173_mask_counterexample), and with a scale the size of the image of the null undistorter can differ from that of its camera (C173_null_size_counterexample).'),
'C174': ('partial', 'The ratios are proved for all masks. The mask is written only if it already has the size of the scaled image; a new mask stays empty (C174_mask_counterexample).'),
'C175': ('partial', 'Proved as trace refinement for every schedule in which the object is started only when it is not busy and the system can create threads. Otherwise: a start without waiting, or two starts at once, run the object twice and end the program (C175_start_busy_counterexample, C175_two_starts_counterexample); a failed creation leaves it busy for ever (C175_create_counterexample); an interrupt during process() is lost if the cycle time is eternal (C175_lost_interrupt_counterexample); a spurious wake-up makes wait return true too early (C175_spurious_counterexample).'),
'C176': ('partial', 'Proved for times from zero to the end of time_t. Negative times give an invalid timespec (C176_negative_counterexample), larger ones undefined behaviour (C176_huge_counterexample); a timer that is stopped twice counts the first interval twice (C176_stop_twice_counterexample).'),
'C177': ('partial', 'The switches are right in every quiescent state (C177_quiescent) of every schedule, and the settings are what the calls say (C177_level, C177_streams). That every call comes back is false: enableNamedStream and initializeLogLocation take the two mutexes in opposite orders (C177_deadlock_counterexample); C177_progress_partial proves that this is the only way to block.'),
'C178': ('partial', 'Messages arrive whole after every history (C178_message, C178_history), formats are split without loss and filled in (C178_split, C178_line, C178_unknown, C178_default). Delivery once and in order is proved while the logger returns normally, exclusion while it throws only std::exception: otherwise the thread loses its next message (C178_alien_counterexample). A failed conversion loses the message (C178_failed_counterexample).'),
'C179': ('partial', 'Projection and validity (C179_project), that the keypoint determines the point (C179_recover), parameters, archives and histories (C179_parameters, C179_history) are proved. The rest of the statement is false: the distortion has no effect, the overload with derivatives reads an empty matrix, back projection always fails, the derivatives of the intrinsics are zero, and the inverse depth depends on the scale of homogeneous coordinates (the C179 counterexamples).'),
'C180': ('partial', 'Proved: with init before each change of the pattern, every solution of every history hands exactly its matrix to the factorization and stays inside its buffers; the blown up ordering is a permutation and keeps blocks together; there is room for orderings, workspace and block structure after every history; the written pattern is symmetric. False in general, with counterexamples: changing the pattern without init reads column pointers never written, writes behind the end or factorizes another matrix; a matrix without columns writes through a null pointer; a structure without columns loses its arrays.'),
'C181': ('partial', 'Proved: the square root, the error and the weight for every positive definite covariance and every history (C181_sqrt, C181_weight), the plain error at rest (C181_still), and that the map is the derivative of the error while the camera is oriented as the scene (C181_map_partial). False in general, with counterexamples: for a turned camera the map leaves out the rotation from the scene to the camera; nothing is known of the weight if the image moves back one row per row; without a spline the covariance of the keypoint is not used.'),
'C182': ('partial', 'Proved for every view that keeps lines parallel: the cells that are printed (C182_cells), the word read from each of the four corners (C182_read), the identifier and the corners with their points on the target (C182_found), the equality of the two code tables (C182_table), when a page is printed (C182_printable), and the checkerboard (C182_boxes, C182_corners). False in general, with counterexamples: in perspective other cells are read, since they are interpolated bilinearly; without the optional list of identifiers to skip no page is printed; tags without gaps are printed but the target refuses them.'),
'C183': ('partial', 'Proved for all engines, histories and bounds whose difference is an int; seeds are reduced to 32 bits and far apart integer bounds overflow (counterexamples).'),
'C184': ('partial', 'Proved for programs that hand each object to at most one owner; an error term added twice as owned is deleted twice, and the adapter does not compute minimal differences (counterexamples).'),
'C185': ('partial', 'Proved for every factorization that solves symmetric systems without kernel; success is reported for singular systems too (counterexample).'),
'C186': ('proved', 'For eliminated blocks that are regular and not coupled with each other; coupled ones give a wrong result (counterexample).'),
'C188': ('partial', 'all but the last sentence is proved, for non-negative objectives. The steepest descent step is too short or too long: the squared norm of the gradient is divided by the squared norm of the matrix times the gradient, so on a linear problem it can raise the objective (C188_cauchy_counterexample). Eliminated variables are not modelled: there the steps have different dimensions'),
'C187': ('partial', 'proved if the linear solver solves every damped system and predicts a decrease. A failure of the solver undoes the last improvement, since the state is reverted although nothing was applied (C187_failure_counterexample). If the last iteration failed, the reported final objective is the one of the state that was given up (C187_final_counterexample). The estimate of the initial damping compares one entry and stores another, and can read outside of a block (C187_lambda_counterexample). optimizeDogLeg is the subject of C188'),
'C189': ('partial', 'proved but for two parts. The estimates by the intrinsics and by the distortion take each column at a point where the parameters of the columns before are smaller by two steps, since the local copy is not reset (C189_intrinsic_counterexample; what is computed instead is C189_intrinsic_partial). After the estimate an error term holds the error of the last perturbed state (C189_stale_counterexample). Rounding is not modelled'),
'C190': ('proved', 'the 27 supported cameras are listed by their parts; the FOV distortion and the extended unified and double sphere projections exist only without mask and rolling shutter'),
'C191': ('proved', 'All matrices in compressed columns; the sort is any sorted permutation. Values are kept exact (the nine digits of the text are not modelled).'),
'C192': ('proved', 'for every number of increments; the hash and the stream operator are not modelled'),
'C193': ('proved', 'for all histories; an update of another size fails an assertion of Eigen and is undefined'),
'C194': ('partial', 'proved but for the equation a x^2 = 0: there the second result is 0 / 0, not a number, instead of the solution zero (counterexample). Without a quadratic term only the second result is finite'),
'C195': ('partial', 'proved for every range of at least two columns. A range of one column raises, so that the covariance of a scalar variable cannot be recovered (counterexample)'),
'C196': ('partial', 'proved for one thread, and for any number of threads that start after the object was made. Threads that ask first may each get an object of their own, or an exception (counterexample)'),
'C197': ('partial', 'proved for quadrilaterals for which OpenCV finds a homography. For others its empty matrix is read (counterexample)'),
'C198': ('partial', 'proved if the last entry is estimated or memory follows the update. Otherwise an update of the right size is read beyond its end (counterexample)'),
'C199': ('partial', 'proved for programs that do not write through the pointer to a descriptor, and for keypoints with a point. The copy shares its descriptor; a keypoint without a point leaves the landmark half changed, or is read through a null pointer (counterexample)'),
'C200': ('partial', 'proved for tolerances that are not negative. For a negative one the compressed matrix uses its absolute value and the others keep all entries (counterexample)'),
}
