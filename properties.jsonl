{"id": "C01", "title": "Adding a duration to a time is exact and normalised", "statement": "For a time t and a duration d, t + d either raises (when the exact sum of nanoseconds is negative or its whole seconds exceed the largest signed 32-bit value) or returns a time whose nanosecond field is below one second and whose total nanoseconds are exactly the sum of the totals of t and d.", "quantifier": "every stored time (any 32-bit seconds / nanoseconds) and every stored duration", "why_tests_cant": "the carry/borrow loops and the range check interact at boundaries of 2^31 and 10^9; tests sample a few instants of a 2^128-sized input space", "anchors": ["aslam_cv/aslam_time/include/aslam_time/implementation/Time.hpp: TimeBase::operator+, operator-", "aslam_cv/aslam_time/src/time.cpp: normalizeSecNSecUnsigned"]}
{"id": "C02", "title": "Time order is the order of instants", "statement": "For normalised times, the comparison operators agree with the order of the represented nanosecond counts: exactly one of <, ==, > holds, <= and >= are the unions, and the order is preserved by adding the same duration to both sides whenever neither addition raises.", "quantifier": "every pair of normalised times and every duration", "why_tests_cant": "universally quantified over pairs of 64-bit values", "anchors": ["aslam_cv/aslam_time/include/aslam_time/implementation/Time.hpp: operator==,<,>,<=,>="]}
{"id": "C03", "title": "Durations have one representation per value", "statement": "After any duration construction or arithmetic, the nanosecond field is in [0, 10^9), so equal amounts of time always compare equal.", "quantifier": "every pair of 32-bit seconds/nanoseconds handed to the constructor, and every sum/difference/negation of durations", "why_tests_cant": "the failure is a single boundary value (exactly 10^9 ns) among 2^32", "anchors": ["aslam_cv/aslam_time/src/duration.cpp: normalizeSecNSecSigned", "aslam_cv/aslam_time/include/aslam_time/implementation/Duration.hpp"]}
{"id": "C04", "title": "Times and durations survive the trip through nanoseconds", "statement": "Reading a time or duration back from its 64-bit nanosecond count returns the same instant or interval; the difference of two times added back to the earlier time gives the later one.", "quantifier": "every normalised time/duration in the representable range", "why_tests_cant": "quantifies over 2^63 counts", "anchors": ["aslam_cv/aslam_time/include/aslam_time/implementation/Time.hpp: fromNSec, operator-(TimeBase)", "aslam_cv/aslam_time/include/aslam_time/Time.hpp: toNSec", "aslam_cv/aslam_time/include/aslam_time/implementation/Duration.hpp: fromNSec"]}
{"id": "C05", "title": "Portable archive integers round-trip", "statement": "Any signed integer written by the portable binary archive is read back unchanged by the portable input archive into any integer type wide enough for it, on either byte order and for either stream byte order.", "quantifier": "every 64-bit value, both machine endiannesses, both stream flags", "why_tests_cant": "2^64 values x configurations; the wrong branch only shows on some build configurations", "anchors": ["Schweizer-Messer/sm_boost/src/portable_binary_oarchive.cpp: save_impl", "Schweizer-Messer/sm_boost/src/portable_binary_iarchive.cpp: load_impl"]}
{"id": "C06", "title": "Portable archives are self-delimiting and never mis-size", "statement": "A sequence of integers written one after another is read back as exactly the same sequence with nothing left over; reading into a type narrower than the stored width raises instead of truncating.", "quantifier": "every finite sequence of 64-bit integers and every target width", "why_tests_cant": "unbounded sequences; framing errors only show in some concatenations", "anchors": ["Schweizer-Messer/sm_boost/src/portable_binary_iarchive.cpp: load_impl", "Schweizer-Messer/sm_boost/src/portable_binary_oarchive.cpp: save_impl"]}
{"id": "C07", "title": "Job queue runs every queued job exactly once and in order", "statement": "While the queue is not stopped, jobs are started in the order they were scheduled, no job is started twice and no scheduled job is lost; with one worker the completion order equals the scheduling order.", "quantifier": "every interleaving of producers, workers and waiters, any number of workers", "why_tests_cant": "schedules are unbounded and non-deterministic", "anchors": ["Schweizer-Messer/sm_boost/src/JobQueue.cpp: exec_loop, add_job/scheduleFuture", "Schweizer-Messer/sm_boost/include/sm_boost/JobQueue.hpp"]}
{"id": "C08", "title": "Waiting for an empty queue means all work is done", "statement": "When waitForEmptyQueue returns, every job scheduled before the call has finished executing (unless the workers were told to die).", "quantifier": "every interleaving and every number of workers", "why_tests_cant": "race conditions: the last job may be dequeued but still running", "anchors": ["Schweizer-Messer/sm_boost/src/JobQueue.cpp: waitForEmptyQueue, exec_loop, killWorkers"]}
{"id": "C09", "title": "Matrix archive files round-trip", "statement": "Saving an archive to a stream and loading that stream into an empty archive gives back exactly the same named matrices (same shape, bit-identical entries) and the same named strings, in particular for every legal name length.", "quantifier": "every archive content: any number of matrices/strings, any shapes below the 32-bit size fields, any legal names", "why_tests_cant": "unbounded contents; padding/trim of names and block framing fail only for particular bytes", "anchors": ["Schweizer-Messer/sm_matrix_archive/src/MatrixArchive.cpp: save, load, writeMatrixBlock, writeStringBlock, readBlock, writeName, readName"]}
{"id": "C10", "title": "Matrix archive lookups return the last value stored", "statement": "After any sequence of set/clear operations, asking for a name returns the value of the most recent set of that name, with the kind (matrix or string) of that set, or raises if the name was never set or was cleared.", "quantifier": "every finite history of setMatrix/setScalar/setVector/setString/clear calls", "why_tests_cant": "histories are unbounded and the failing ones mix kinds under one name", "anchors": ["Schweizer-Messer/sm_matrix_archive/src/MatrixArchive.cpp: clear, setScalar, setString, getString", "Schweizer-Messer/sm_matrix_archive/include/sm_matrix_archive/MatrixArchive.hpp: setMatrix, setVector"]}
{"id": "C11", "title": "Matrix archive accepts exactly the legal names", "statement": "A name is accepted iff it has 1 to 32 characters, starts with a letter and continues with letters, digits or underscores; anything else raises and stores nothing.", "quantifier": "every string", "why_tests_cant": "all strings of every length", "anchors": ["Schweizer-Messer/sm_matrix_archive/src/MatrixArchive.cpp: validateName, isNameValid"]}
{"id": "C12", "title": "Archive sizes count the stored entries", "statement": "sizeMatrices, sizeStrings and size return the number of stored matrices, strings and their sum.", "quantifier": "every archive content", "why_tests_cant": "the wrong count coincides with the right one whenever there are as many strings as matrices", "anchors": ["Schweizer-Messer/sm_matrix_archive/src/MatrixArchive.cpp: sizeMatrices, sizeStrings, size"]}
{"id": "C13", "title": "Union-find merges exactly the connected pixels", "statement": "After any sequence of connect operations two elements have the same representative iff they are linked by a chain of connected pairs, and the reported set size of an element is the number of elements linked to it; lookups (which compress paths) never change this.", "quantifier": "every element count and every finite sequence of connect/lookup calls", "why_tests_cant": "the relation is the transitive closure of an unbounded sequence", "anchors": ["aslam_offline_calibration/aslam_apriltag2/src/UnionFindSimple.cc: getRepresentative, connectNodes, init", "aslam_offline_calibration/aslam_apriltag2/include/apriltags/UnionFindSimple.h: getSetSize"]}
{"id": "C14", "title": "Tag decoding finds the nearest code word over four rotations", "statement": "Decoding an observed bit pattern reports the id, rotation and Hamming distance of a code/rotation pair with the smallest distance among all codes and all four rotations (the first one in scan order), and marks it good iff that distance is within the error-recovery bound.", "quantifier": "every tag family and every observed pattern", "why_tests_cant": "2^36 patterns times family size", "anchors": ["aslam_offline_calibration/aslam_apriltag2/src/TagFamily.cc: decode, hammingDistance, popCount, rotate90"]}
{"id": "C15", "title": "Tag decoding corrects bounded bit errors", "statement": "If the code words of a family, in all rotations, are pairwise more than 2e bits apart, then a code word seen in any rotation with at most e flipped bits decodes to that id and rotation, whatever bits were flipped.", "quantifier": "every family with that minimum distance, every id, rotation and error pattern of weight <= e", "why_tests_cant": "combinatorially many error patterns", "anchors": ["aslam_offline_calibration/aslam_apriltag2/src/TagFamily.cc: decode, rotate90"]}
{"id": "C16", "title": "Four quarter turns of a tag code are the identity", "statement": "Rotating a d*d-bit code four times by 90 degrees gives the same code, and each rotation is a permutation of its bits (so it preserves Hamming distances).", "quantifier": "every code of every dimension whose bits fit the word", "why_tests_cant": "2^36 codes", "anchors": ["aslam_offline_calibration/aslam_apriltag2/src/TagFamily.cc: rotate90"]}
{"id": "C17", "title": "Clock correction keeps a supporting lower hull", "statement": "After any accepted sequence of (remote, local) samples, the stored points are a subsequence of the samples with strictly increasing remote time and strictly increasing slopes, and no sample lies strictly below the polyline through them.", "quantifier": "every finite sequence of sample pairs with increasing remote time", "why_tests_cant": "hull correctness is an unbounded-history invariant", "anchors": ["Schweizer-Messer/sm_timing/include/sm_timing/implementation/TimestampCorrector.hpp: correctTimestamp, isAboveLine, isAboveTopLine"]}
{"id": "C18", "title": "Corrected stamps never run ahead of reception", "statement": "The corrected local time returned for a sample never exceeds the local time at which that sample was received.", "quantifier": "every finite sequence of samples", "why_tests_cant": "depends on the hull invariant for the whole history", "anchors": ["Schweizer-Messer/sm_timing/include/sm_timing/implementation/TimestampCorrector.hpp: correctTimestamp, getLocalTime"]}
{"id": "C19", "title": "Clock correction never reads outside its hull", "statement": "Every query (getLocalTime, getSlope, getOffset) on a corrector with at least two hull points reads two existing hull points.", "quantifier": "every finite sequence of samples and queries", "why_tests_cant": "needs a history in which the hull shrinks between updates", "anchors": ["Schweizer-Messer/sm_timing/include/sm_timing/implementation/TimestampCorrector.hpp: getLocalTime, getSlope, getOffset"]}
{"id": "C20", "title": "Time-going-backwards is rejected without side effects", "statement": "A sample whose remote time is not later than the previous one raises and leaves every later correction unchanged.", "quantifier": "every history and every offending sample", "why_tests_cant": "universally quantified histories", "anchors": ["Schweizer-Messer/sm_timing/include/sm_timing/implementation/TimestampCorrector.hpp: correctTimestamp"]}
{"id": "C21", "title": "Timers are accounted to the right tag", "statement": "Tags get distinct dense handles that never change; each completed start/stop pair adds exactly one sample to its own tag and to no other; starting a running timer or stopping a stopped one raises and records nothing.", "quantifier": "every finite history of timer operations over any tags", "why_tests_cant": "unbounded histories", "anchors": ["Schweizer-Messer/sm_timing/src/Timer.cpp: Timing::getHandle, getTag, Timer::start, stop, addTime, getNumSamples"]}
{"id": "C22", "title": "Optimisation never ends with a larger cost than it started", "statement": "With revert-on-failure policies, the cost reported at the end of optimize() is not larger than the initial cost, every intermediate accepted cost is non-increasing, and the design variables left behind are the ones whose cost is reported.", "quantifier": "every cost landscape, every sequence of proposed steps and solver failures", "why_tests_cant": "the trajectory depends on arbitrary cost values and solver outcomes", "anchors": ["aslam_optimizer/aslam_backend/src/Optimizer2.cpp: optimize, applyStateUpdate, revertLastStateUpdate"]}
{"id": "C23", "title": "Optimisation stops within its iteration budget", "statement": "optimize() performs at most maxIterations accepted iterations and at most maxIterations failed ones, and stops on its own.", "quantifier": "every problem and option set", "why_tests_cant": "termination over arbitrary numeric behaviour", "anchors": ["aslam_optimizer/aslam_backend/src/Optimizer2.cpp: optimize"]}
{"id": "C24", "title": "Block and column indices tile the state vector", "statement": "After initialisation the active design variables have block indices 0..n-1 in order and consecutive column ranges that tile the state vector exactly; inactive ones get -1; error-term row ranges tile the error vector.", "quantifier": "every list of design variables with any dimensions and activity flags", "why_tests_cant": "unbounded lists", "anchors": ["aslam_optimizer/aslam_backend/src/Optimizer2.cpp: initialize", "aslam_optimizer/aslam_backend/src/LinearSystemSolver.cpp: initMatrixStructure"]}
{"id": "C25", "title": "State updates are undone exactly", "statement": "Reverting the last state update restores every active design variable to its value before the update and touches no inactive one; the update reads each variable's own segment of the step, scaled.", "quantifier": "every problem and step", "why_tests_cant": "unbounded numbers of variables", "anchors": ["aslam_optimizer/aslam_backend/src/Optimizer2.cpp: applyStateUpdate, revertLastStateUpdate"]}
{"id": "C26", "title": "Adding Jacobian containers adds the maps", "statement": "Adding containers (and applying a chain-rule matrix) represents the sum (and product) of the linear maps: for every design variable the stored block is the sum of the contributions and no variable is lost or duplicated; the blocks stay ordered by block index.", "quantifier": "every pair of containers with any overlap of design variables", "why_tests_cant": "merge code with many overlap patterns", "anchors": ["aslam_optimizer/aslam_backend/src/JacobianContainer.cpp: add, applyChainRule"]}
{"id": "C27", "title": "Compressed column matrix stays well formed and means the dense matrix", "statement": "Any sequence of Jacobian appends, diagonal pushes/pops and rewrites keeps the compressed form valid (monotone column pointers, in-range rows) and its dense expansion is the intended matrix; element access and left/right products agree with the dense expansion.", "quantifier": "every sequence of operations and every size", "why_tests_cant": "structural invariant over unbounded histories", "anchors": ["aslam_optimizer/aslam_backend/include/aslam_backend/backend/implementation/CompressedColumnMatrix.hpp"]}
{"id": "C28", "title": "Pushing and popping a diagonal block leaves the matrix unchanged", "statement": "popDiagonalBlock after pushDiagonalBlock (with any number of updates in between) restores the matrix exactly; pushing twice or popping without a push raises.", "quantifier": "every matrix, every diagonal sequence", "why_tests_cant": "state machine over unbounded histories", "anchors": ["aslam_optimizer/aslam_backend/include/aslam_backend/backend/implementation/CompressedColumnMatrix.hpp: pushDiagonalBlock, popDiagonalBlock, updateDiagonalBlock"]}
{"id": "C29", "title": "Threaded error evaluation covers every error term once", "statement": "Splitting n error terms over k threads evaluates each term exactly once, in contiguous ranges, for every n and k.", "quantifier": "every n and k", "why_tests_cant": "off-by-one in the split shows only for particular remainders", "anchors": ["aslam_optimizer/aslam_backend/src/LinearSystemSolver.cpp: setupThreadedJob, evaluateErrors"]}
{"id": "C30", "title": "Optimisation problem bookkeeping is consistent", "statement": "After any sequence of add/remove operations the problem contains exactly the live design variables and error terms, removal of a design variable removes exactly the error terms that depend on it, and the errors listed for a variable are exactly the live terms mentioning it.", "quantifier": "every history of operations", "why_tests_cant": "unbounded histories", "anchors": ["aslam_optimizer/aslam_backend/src/OptimizationProblem.cpp"]}
{"id": "C31", "title": "Robust weights are valid", "statement": "Every robust-estimator weight is in (0,1], equals 1 at zero error and never increases with the error.", "quantifier": "every error value and every positive parameter", "why_tests_cant": "continuum of inputs", "anchors": ["aslam_optimizer/aslam_backend/src/MEstimatorPolicies.cpp"]}
{"id": "C32", "title": "Trust-region steps stay in the trust region", "statement": "The dog-leg step returned never has a norm larger than the current trust-region radius, and the Levenberg-Marquardt damping stays positive.", "quantifier": "every gradient, Gauss-Newton step and radius", "why_tests_cant": "continuum of inputs", "anchors": ["aslam_optimizer/aslam_backend/src/DogLegTrustRegionPolicy.cpp", "aslam_optimizer/aslam_backend/src/LevenbergMarquardtTrustRegionPolicy.cpp"]}
{"id": "C33", "title": "Sparse block matrices denote dense matrices", "statement": "Element access, dense expansion, transpose, addition, product with a matrix or a vector, scaling and slicing of a sparse block matrix all agree with the same operation on the dense matrix it denotes.", "quantifier": "every block layout, sparsity pattern and contents", "why_tests_cant": "unbounded layouts", "anchors": ["aslam_optimizer/aslam_sparse_block_matrix/include/aslam_sparse_block_matrix/implementation/sparse_block_matrix.hpp: operator(), toDenseInto, transpose, add, multiply, rightMultiply, scale, slice"]}
{"id": "C34", "title": "Compressed-column export lists exactly the stored entries", "statement": "fillCCS writes column pointers that are monotone and end at the returned count, row indices strictly increasing in each column, and values equal to the dense entries; everything not listed is zero.", "quantifier": "every block layout and contents", "why_tests_cant": "unbounded layouts", "anchors": ["aslam_optimizer/aslam_sparse_block_matrix/include/aslam_sparse_block_matrix/implementation/sparse_block_matrix.hpp: fillCCS, fillBlockStructure"]}
{"id": "C35", "title": "Batch problems index their variables consistently", "statement": "In a single batch problem the group ordering is a permutation of the groups in use, a flat index addresses every design variable exactly once in group order, and the reported sizes are the sums of the group sizes.", "quantifier": "every history of additions and permutations", "why_tests_cant": "unbounded histories", "anchors": ["aslam_incremental_calibration/aslam_incremental_calibration/src/core/OptimizationProblem.cpp"]}
{"id": "C36", "title": "Merged problem counts references of shared variables", "statement": "After any sequence of successful add/remove of batches, the merged problem lists each design variable of the live batches exactly once, forgets a variable exactly when its last batch is removed, and flat error indices enumerate all error terms of the live batches.", "quantifier": "every history of batch additions and removals", "why_tests_cant": "unbounded histories", "anchors": ["aslam_incremental_calibration/aslam_incremental_calibration/src/core/IncrementalOptimizationProblem.cpp: add, remove, getErrorIdx, getGroupId"]}
{"id": "C37", "title": "A failed batch addition leaves the merged problem unchanged", "statement": "If adding a batch raises, the merged problem is exactly as before.", "quantifier": "every problem state and every rejected batch", "why_tests_cant": "exception paths after partial mutation", "anchors": ["aslam_incremental_calibration/aslam_incremental_calibration/src/core/IncrementalOptimizationProblem.cpp: add"]}
{"id": "C38", "title": "A rejected batch leaves the estimator unchanged", "statement": "When the estimator does not keep a batch, the set of batches, every design-variable value and the stored marginal estimates are the same as before the call; when it keeps it, the batch is appended.", "quantifier": "every estimator history and every batch", "why_tests_cant": "depends on whole histories and solver outcomes", "anchors": ["aslam_incremental_calibration/aslam_incremental_calibration/src/core/IncrementalEstimator.cpp: addBatch, removeBatch, reoptimize"]}
{"id": "C39", "title": "Marginalised group is ordered last", "statement": "Before solving, the marginalised group is the last group in the ordering and no group is lost or duplicated.", "quantifier": "every group ordering", "why_tests_cant": "all permutations", "anchors": ["aslam_incremental_calibration/aslam_incremental_calibration/src/core/IncrementalEstimator.cpp: orderMarginalizedDesignVariables"]}
{"id": "C40", "title": "Grid cell indexing is a bijection", "statement": "Coordinates in range map to a valid cell containing them; the linear index is a bijection between valid cells and 0..n-1; stepping from the first index visits every cell exactly once and then stops.", "quantifier": "every dimension count, cell counts and coordinates", "why_tests_cant": "unbounded dimensions", "anchors": ["aslam_incremental_calibration/aslam_incremental_calibration/include/aslam_incremental_calibration/data-structures/Grid.tpp"]}
{"id": "C41", "title": "Spline basis is a partition of unity", "statement": "At every time in the valid interval the local basis weights sum to 1, so a spline with equal coefficients is constant; for nondecreasing knots the weights are also non-negative (convex-hull property).", "quantifier": "every order, knot sequence and time", "why_tests_cant": "continuum of times and unbounded orders", "anchors": ["aslam_nonparametric_estimation/aslam_bsplines/src/BSpline.cpp: M, computeU, evalD, getLocalBiVector"]}
{"id": "C42", "title": "Spline evaluation is the B-spline of the knots and coefficients", "statement": "eval(t) equals the sum over coefficients of the Cox-de Boor basis functions of the knot sequence at t.", "quantifier": "every order, nondecreasing knot sequence and time in the valid interval", "why_tests_cant": "continuum of inputs, recursion over the order", "anchors": ["aslam_nonparametric_estimation/aslam_bsplines/src/BSpline.cpp: evalD, M, d_0, d_1"]}
{"id": "C43", "title": "Every time in the valid range hits an existing segment", "statement": "For every t between t_min and t_max the located segment index is inside the range of segments, its knots bracket t, and the coefficient window read lies inside the coefficient matrix; times outside raise.", "quantifier": "every knot sequence accepted and every time", "why_tests_cant": "binary search corner cases with repeated knots and the end point", "anchors": ["aslam_nonparametric_estimation/aslam_bsplines/src/BSpline.cpp: computeTIndex, computeUAndTIndex, localCoefficientVectorIndices"]}
{"id": "C44", "title": "Knot sequences are validated", "statement": "setKnotsAndCoefficients accepts only nondecreasing knot sequences with the matching number of coefficients.", "quantifier": "every knot sequence and every prior state", "why_tests_cant": "the check looks at the wrong vector and only shows on some prior states", "anchors": ["aslam_nonparametric_estimation/aslam_bsplines/src/BSpline.cpp: setKnotsAndCoefficients, verifyKnotSequence"]}
{"id": "C45", "title": "Dropping the oldest segment does not change the rest of the curve", "statement": "After removeCurveSegment the curve evaluated on the remaining valid interval is unchanged.", "quantifier": "every spline and every time in the remaining interval", "why_tests_cant": "needs non-uniform knots", "anchors": ["aslam_nonparametric_estimation/aslam_bsplines/src/BSpline.cpp: removeCurveSegment, evalD"]}
{"id": "C46", "title": "Spline derivative and integral are the calculus ones", "statement": "evalD(t,n) is the n-th derivative of the curve inside a segment, and evalIntegral(a,b) is the exact integral (antisymmetric and additive over adjacent intervals).", "quantifier": "every order, knots, coefficients and times", "why_tests_cant": "continuum", "anchors": ["aslam_nonparametric_estimation/aslam_bsplines/src/BSpline.cpp: evalD, computeU, dmul, evalIntegral"]}
{"id": "C47", "title": "Knot, segment and coefficient counts are consistent", "statement": "The number of knots required for s segments, valid segments for k knots, and coefficients required are mutually inverse, for every order.", "quantifier": "every order >= 2 and every segment count", "why_tests_cant": "unbounded integers", "anchors": ["aslam_nonparametric_estimation/aslam_bsplines/src/BSpline.cpp: numKnotsRequired, numValidTimeSegments, numCoefficientsRequired"]}
{"id": "C48", "title": "Quaternion composition is composition of rotations", "statement": "The rotation matrix of a product of quaternions is the product of their rotation matrices; rotating a vector by the quaternion equals multiplying by the matrix; the inverse quaternion gives the transposed matrix; unit quaternions give proper rotations.", "quantifier": "all quaternions and vectors", "why_tests_cant": "continuum", "anchors": ["Schweizer-Messer/sm_kinematics/src/quaternion_algebra.cpp: qplus, quat2r, quatRotate, quatInv, quatPlus, quatOPlus"]}
{"id": "C49", "title": "Rotation matrix to quaternion and back", "statement": "Converting a rotation matrix to a quaternion and back returns the same matrix, for every rotation (including half turns); the quaternion is unit and has non-negative scalar part.", "quantifier": "all of SO(3)", "why_tests_cant": "four numeric branches, each exercised on a region", "anchors": ["Schweizer-Messer/sm_kinematics/src/quaternion_algebra.cpp: r2quat, quat2r"]}
{"id": "C50", "title": "Rigid transformations form a group acting on points", "statement": "Composition, inversion and identity of transformations satisfy the group laws and agree with the 4x4 homogeneous matrices and with their action on points.", "quantifier": "all transformations and points", "why_tests_cant": "continuum", "anchors": ["Schweizer-Messer/sm_kinematics/src/Transformation.cpp: operator*, inverse, T", "Schweizer-Messer/sm_kinematics/src/transformations.cpp: inverseTransform"]}
{"id": "C51", "title": "Rotation vector round trip", "statement": "For every rotation vector shorter than pi, converting to a rotation matrix and back returns the vector; the matrix is a proper rotation.", "quantifier": "all vectors", "why_tests_cant": "singular neighbourhoods at 0 and pi", "anchors": ["Schweizer-Messer/sm_kinematics/src/RotationVector.cpp: parametersToRotationMatrix, rotationMatrixToParameters", "Schweizer-Messer/sm_kinematics/src/rotations.cpp: axisAngle2R, R2AxisAngle"]}
{"id": "C52", "title": "Euler-angle rates give the true angular velocity", "statement": "For each Euler parameterisation the S matrix times the parameter rates is the angular velocity of the rotation matrix, and the reported Jacobian is its true derivative.", "quantifier": "all angles and rates", "why_tests_cant": "continuum, calculus", "anchors": ["Schweizer-Messer/sm_kinematics/src/EulerAnglesZYX.cpp", "Schweizer-Messer/sm_kinematics/src/EulerAnglesYawPitchRoll.cpp", "Schweizer-Messer/sm_kinematics/src/EulerRodriguez.cpp"]}
{"id": "C53", "title": "Axis-angle rotation depends continuously on the angle", "statement": "axisAngle2R(a, axis) is the rotation by angle a about the axis for every real angle a, positive or negative.", "quantifier": "all angles and unit axes", "why_tests_cant": "the shortcut for tiny angles catches all negative ones", "anchors": ["Schweizer-Messer/sm_kinematics/src/rotations.cpp: axisAngle2R"]}
{"id": "C54", "title": "Pinhole back-projection inverts projection", "statement": "A point in front of the camera projects to a keypoint whose back-projected ray is the direction of the point, given a distortion whose undistort inverts distort; a back-projected valid keypoint projects to itself.", "quantifier": "all points and keypoints, all non-zero focal lengths", "why_tests_cant": "continuum", "anchors": ["aslam_cv/aslam_cameras/include/aslam_cameras/cameras/implementation/PinholeProjection.hpp: euclideanToKeypoint, keypointToEuclidean"]}
{"id": "C55", "title": "Projection Jacobians are the derivatives", "statement": "The Jacobians returned with a projection (with respect to the point, the intrinsics and the distortion parameters) are the derivatives of the projection.", "quantifier": "all points and parameters", "why_tests_cant": "continuum, calculus", "anchors": ["aslam_cv/aslam_cameras/include/aslam_cameras/cameras/implementation/PinholeProjection.hpp", "aslam_cv/aslam_cameras/include/aslam_cameras/cameras/implementation/RadialTangentialDistortion.hpp", "aslam_cv/aslam_cameras/include/aslam_cameras/cameras/implementation/OmniProjection.hpp", "aslam_cv/aslam_cameras/include/aslam_cameras/cameras/implementation/FovDistortion.hpp", "aslam_cv/aslam_cameras/include/aslam_cameras/cameras/implementation/EquidistantDistortion.hpp"]}
{"id": "C56", "title": "Homogeneous projection ignores the sign of the scale", "statement": "Projecting a homogeneous point and its negation give the same keypoint and validity, with or without the Jacobian being requested.", "quantifier": "all homogeneous points", "why_tests_cant": "one overload only, negative scale only", "anchors": ["aslam_cv/aslam_cameras/include/aslam_cameras/cameras/implementation/PinholeProjection.hpp: homogeneousToKeypoint", "aslam_cv/aslam_cameras/include/aslam_cameras/cameras/implementation/OmniProjection.hpp: homogeneousToKeypoint"]}
{"id": "C57", "title": "Omnidirectional back-projection inverts projection", "statement": "For every mirror parameter, a point accepted by the projection is back-projected to a ray parallel to it with the same orientation.", "quantifier": "all points, all mirror parameters >= 0", "why_tests_cant": "continuum with two mirror regimes", "anchors": ["aslam_cv/aslam_cameras/include/aslam_cameras/cameras/implementation/OmniProjection.hpp: euclideanToKeypoint, keypointToEuclidean"]}
{"id": "C58", "title": "Calibration target indices and coordinates correspond", "statement": "Grid coordinates and point indices are inverse to each other, every point of a target has a distinct index, and asking for a point pointer with a valid index succeeds while an invalid one raises.", "quantifier": "all grid sizes and indices", "why_tests_cant": "coincidence on square grids and on the diagonal", "anchors": ["aslam_cv/aslam_cameras/src/GridCalibrationTargetBase.cpp"]}
{"id": "C59", "title": "Target observations report exactly the observed corners", "statement": "After any sequence of corner updates and removals, the corner lists in image frame, target frame and index form have the same length, the same order and list exactly the currently observed corners.", "quantifier": "every history of updates/removals", "why_tests_cant": "unbounded histories", "anchors": ["aslam_cv/aslam_cameras/src/GridCalibrationTargetObservation.cpp", "aslam_cv/aslam_cameras/src/GridDetector.cpp: findTarget"]}
{"id": "C60", "title": "Undistortion stops at an exact solution", "statement": "If an iterative undistortion starts from (or reaches) a point whose distortion equals the measurement, it returns that point; in particular the image centre is undistorted to itself.", "quantifier": "all distortion parameters and points", "why_tests_cant": "continuum; division by zero at the centre", "anchors": ["aslam_cv/aslam_cameras/include/aslam_cameras/cameras/implementation/RadialTangentialDistortion.hpp: undistort", "aslam_cv/aslam_cameras/include/aslam_cameras/cameras/implementation/EquidistantDistortion.hpp: undistort", "aslam_cv/aslam_cameras/include/aslam_cameras/cameras/implementation/FovDistortion.hpp: undistort"]}
{"id": "C61", "title": "Container permutation applies the given permutation", "statement": "Permuting a container by an index vector that is a permutation puts element p[i] at position i; any other index vector of the right length is rejected without changing the container.", "quantifier": "every container and every index vector", "why_tests_cant": "unbounded sizes and every malformed vector", "anchors": ["aslam_incremental_calibration/aslam_incremental_calibration/include/aslam_incremental_calibration/algorithms/permute.tpp: permute"]}
{"id": "C62", "title": "Saving and restoring the merged problem touches exactly its variables", "statement": "Restoring after a save gives every design variable of the merged problem the value it had at the save, and changes no variable that is not in the problem.", "quantifier": "every history of the merged problem and every sequence of writes between save and restore", "why_tests_cant": "unbounded histories, aliasing", "anchors": ["aslam_incremental_calibration/aslam_incremental_calibration/src/core/IncrementalOptimizationProblem.cpp: saveDesignVariables, restoreDesignVariables, clear"]}
{"id": "C63", "title": "An estimator call that raises leaves the estimator unchanged", "statement": "If addBatch, removeBatch or reoptimize raises, the batches, the design-variable values and the stored estimates are the same as before the call.", "quantifier": "every estimator history, every batch and every solver failure", "why_tests_cant": "exception paths after partial mutation", "anchors": ["aslam_incremental_calibration/aslam_incremental_calibration/src/core/IncrementalEstimator.cpp: addBatch, removeBatch, reoptimize"]}
{"id": "C64", "title": "Appending to an archive file adds the entries", "statement": "After append on an existing archive file, loading the file gives its previous entries together with the appended ones.", "quantifier": "every existing file and every archive", "why_tests_cant": "every content of file and archive", "anchors": ["Schweizer-Messer/sm_matrix_archive/src/MatrixArchive.cpp: append"]}
{"id": "C65", "title": "A damaged archive file is rejected", "statement": "Loading a file that is not a sequence of complete blocks raises an exception.", "quantifier": "every byte sequence", "why_tests_cant": "every truncation point and every damaged byte of every file", "anchors": ["Schweizer-Messer/sm_matrix_archive/src/MatrixArchive.cpp: load, readBlock, readMatrix, readString"]}
{"id": "C66", "title": "The shipped tag families have their declared minimum distance", "statement": "In every shipped code table, any two code words differ in at least the declared number of cells whatever the rotation of either, and a code word differs from its own rotations by at least as much.", "quantifier": "every pair of codes of every shipped table and all four rotations", "why_tests_cant": "the tables are data; one mistyped or symmetric word breaks identification of particular tags only", "anchors": ["aslam_offline_calibration/aslam_apriltag2/include/aslam_apriltag2/Tag36h11.h: t36h11", "aslam_offline_calibration/aslam_apriltag2/include/aslam_apriltag2/Tag16h5_other.h: t16h5_other", "aslam_offline_calibration/aslam_apriltag2/include/aslam_apriltag2/Tag36h11_other.h: t36h11_other"]}
{"id": "C67", "title": "A calibration-target tag survives five misread cells", "statement": "With the code table of the calibration target (36h11), every tag seen in any rotation with at most five misread cells is identified with its id and rotation.", "quantifier": "every tag, rotation and set of at most five misread cells", "why_tests_cant": "587 tags times 4 rotations times 443,704 error patterns", "anchors": ["aslam_cv/aslam_cameras_april/src/GridCalibrationTargetAprilgrid.cpp: _tagCodes", "aslam_offline_calibration/aslam_apriltag2/src/TagFamily.cc: decode"]}
{"id": "C68", "title": "J() is the cost of the current state", "statement": "After optimize() returns, J() is the cost of the design variables as they were left.", "quantifier": "every cost landscape and every sequence of proposed steps", "why_tests_cant": "depends on whether the last step was rejected", "anchors": ["aslam_optimizer/aslam_backend/src/Optimizer2.cpp: optimize, J"]}
{"id": "C69", "title": "Optimisation stops when it has converged", "statement": "optimize() stops after the first pass whose step is at most convergenceDeltaX or whose cost change is at most convergenceDeltaJ.", "quantifier": "every cost landscape, every sequence of proposed steps and solver failures", "why_tests_cant": "depends on the history of solver failures", "anchors": ["aslam_optimizer/aslam_backend/src/Optimizer2.cpp: optimize"]}
{"id": "C70", "title": "An exception in an error term reaches the caller", "statement": "If evaluating an error term throws, evaluating the error of the whole problem throws that exception, whatever the number of threads; otherwise it returns.", "quantifier": "every set of error terms, every number of threads, every interleaving", "why_tests_cant": "depends on thread interleaving and on which terms throw", "anchors": ["aslam_optimizer/aslam_backend/src/LinearSystemSolver.cpp: setupThreadedJob, SafeJob, evaluateError"]}
{"id": "C71", "title": "The Hessian contribution of an error term", "statement": "Evaluating an error term into the normal equations adds J_i^T W J_j to every block (i,j) with i not after j, subtracts J_i^T W e from the right-hand side segment of variable i, with Jacobians scaled by the variable scaling, and changes nothing else.", "quantifier": "every error term, every set of design variables, every state of the equations", "why_tests_cant": "every block order and every combination of variables", "anchors": ["aslam_optimizer/aslam_backend/src/JacobianContainer.cpp: evaluateHessian, buildHessianBlock, buildCorrelatedHessianBlock"]}
{"id": "C72", "title": "Symmetric permutation of a sparse block matrix", "statement": "Permuting a block matrix with equal row and column layout yields the matrix whose dense form is the row and column permuted dense form; with the upper-triangle option the stored upper triangle is the upper triangle of the permuted symmetric matrix.", "quantifier": "every block matrix and every permutation of its blocks", "why_tests_cant": "every layout, sparsity pattern and permutation", "anchors": ["aslam_optimizer/aslam_sparse_block_matrix/include/aslam_sparse_block_matrix/implementation/sparse_block_matrix.hpp: symmPermutation"]}
{"id": "C73", "title": "Solving a damped system leaves the system unchanged", "statement": "With the block Cholesky solver, solving with a diagonal conditioner c solves the system whose matrix is the built one plus c^2 on the diagonal, and afterwards the stored matrix is the built one again, so that further solves with other conditioners damp the same system.", "quantifier": "every system, every conditioner, every number of solves after one build", "why_tests_cant": "depends on the values of the conditioner and on repeated solves", "anchors": ["aslam_optimizer/aslam_backend/src/BlockCholeskyLinearSystemSolver.cpp: solveSystem"]}
{"id": "C74", "title": "Curvature along the right-hand side", "statement": "The curvature a solver reports along its right-hand side r is r^T (J^T J) r for the Jacobian J of the built system.", "quantifier": "every system", "why_tests_cant": "every combination of correlated variables", "anchors": ["aslam_optimizer/aslam_backend/src/BlockCholeskyLinearSystemSolver.cpp: rhsJtJrhs"]}
{"id": "C75", "title": "The sparse Jacobian builder assembles the Jacobian of the problem", "statement": "After the matrix structure has been initialised for the error terms and the weighted Jacobians have been evaluated, by any number of threads and in any order, the sparse matrix is the transposed Jacobian of the whole problem: column block k holds the transposed Jacobian of error term k, each variable in its own rows, whatever the matrix held before.", "quantifier": "every list of error terms, every layout of the variables, every order of evaluation", "why_tests_cant": "threads write in any order, sizes are unbounded", "anchors": ["aslam_optimizer/aslam_backend/include/aslam_backend/backend/implementation/CompressedColumnJacobianTransposeBuilder.hpp: initMatrixStructure, evaluateJacobians", "aslam_optimizer/aslam_backend/include/aslam_backend/backend/implementation/CompressedColumnMatrix.hpp: appendJacobiansSymbolic, writeJacobians"]}
{"id": "C76", "title": "Stopping and destroying a job queue", "statement": "After stop() no further job is started, and jobs not started stay in the queue; join() returns once the running jobs have finished; when the destructor returns no job runs and no worker uses the queue any more.", "quantifier": "every interleaving of clients and workers, any number of workers", "why_tests_cant": "schedules are unbounded and non-deterministic; the flag is set without the mutex", "anchors": ["Schweizer-Messer/sm_boost/src/JobQueue.cpp: stop, join, ~JobQueue, exec_loop"]}
{"id": "C77", "title": "The robust cost grows with the error", "statement": "The cost of an error term under a robust weight never decreases when its squared error grows, and equals the squared norm of the weighted error vector used to build the linear system.", "quantifier": "every error value and every positive parameter", "why_tests_cant": "continuum of errors and parameters", "anchors": ["aslam_optimizer/aslam_backend/src/ErrorTerm.cpp: getWeightedSquaredError", "aslam_optimizer/aslam_backend/src/MEstimatorPolicies.cpp: getWeight", "aslam_optimizer/aslam_backend/include/aslam_backend/backend/implementation/ErrorTerm.hpp: getWeightedError"]}
{"id": "C78", "title": "A rejected step makes the next one shorter", "statement": "After a step has been rejected, the next dog-leg step is at most half as long, and the Levenberg-Marquardt damping at least doubles.", "quantifier": "every history of costs, systems and rejections", "why_tests_cant": "depends on the costs of several previous steps", "anchors": ["aslam_optimizer/aslam_backend/src/TrustRegionPolicy.cpp: solveSystem, get_dJ", "aslam_optimizer/aslam_backend/src/DogLegTrustRegionPolicy.cpp: solveSystemImplementation", "aslam_optimizer/aslam_backend/src/LevenbergMarquardtTrustRegionPolicy.cpp: solveSystemImplementation"]}
{"id": "C79", "title": "A step is computed from the system of the current state", "statement": "The step returned by a trust-region policy is computed from the linear system of the current state, never from that of an earlier state.", "quantifier": "every history of costs, systems, rejections and solver failures", "why_tests_cant": "depends on which branch was taken for several previous steps", "anchors": ["aslam_optimizer/aslam_backend/src/DogLegTrustRegionPolicy.cpp: solveSystemImplementation", "aslam_optimizer/aslam_backend/src/LevenbergMarquardtTrustRegionPolicy.cpp: solveSystemImplementation"]}
{"id": "C80", "title": "Updating a quaternion", "statement": "The quaternion update and the increment of a transformation turn the rotation by the length of the given vector about its direction, keep unit quaternions, do nothing for zero, and reach every rotation.", "quantifier": "all unit quaternions and vectors", "why_tests_cant": "continuum; a threshold for small vectors", "anchors": ["Schweizer-Messer/sm_kinematics/src/quaternion_algebra.cpp: updateQuat", "Schweizer-Messer/sm_kinematics/src/Transformation.cpp: oplus"]}
{"id": "C81", "title": "Exponential and logarithm of quaternions", "statement": "axisAngle2quat gives the unit quaternion of the turn by the length of the vector, and quat2AxisAngle undoes it for vectors shorter than a full turn; conversely every unit quaternion other than minus one is recovered from its logarithm.", "quantifier": "all vectors and unit quaternions", "why_tests_cant": "continuum with four numerical branches", "anchors": ["Schweizer-Messer/sm_kinematics/src/quaternion_algebra.cpp: axisAngle2quat, quat2AxisAngle"]}
{"id": "C82", "title": "Euler angles and rotation matrices", "statement": "Euler angles in their range are recovered from the matrix they give, every rotation matrix is the matrix of its Euler angles, and these matrices are proper rotations.", "quantifier": "all angles in range and all rotation matrices, three conventions", "why_tests_cant": "continuum, gimbal lock", "anchors": ["Schweizer-Messer/sm_kinematics/src/EulerAnglesYawPitchRoll.cpp", "Schweizer-Messer/sm_kinematics/src/EulerAnglesZYX.cpp", "Schweizer-Messer/sm_kinematics/src/EulerAnglesZXY.cpp", "Schweizer-Messer/sm_kinematics/src/rotations.cpp: R2rph, rph2R, C2rph, rph2C"]}
{"id": "C83", "title": "Rates and angular velocity correspond", "statement": "The S matrix of quaternions turns rates into the angular velocity of the rotation, and the inverse S matrices of quaternions and rotation vectors turn it back.", "quantifier": "all parameters and rates", "why_tests_cant": "continuum, calculus", "anchors": ["Schweizer-Messer/sm_kinematics/src/quaternion_algebra.cpp: quatS, quatInvS", "Schweizer-Messer/sm_kinematics/src/RotationVector.cpp: parametersToSMatrix, parametersToInverseSMatrix"]}
{"id": "C84", "title": "Interpolation of rotations and transformations", "statement": "Interpolation returns the first end at and before its time, the second at and after its time, and in between the translation on the straight line and the rotation turned by the elapsed fraction of the shorter turn from the first to the second, whichever end is given first.", "quantifier": "all pairs of transformations and all times", "why_tests_cant": "continuum; double cover of the rotations", "anchors": ["Schweizer-Messer/sm_kinematics/src/quaternion_algebra.cpp: qslerp, lerp", "Schweizer-Messer/sm_kinematics/src/Transformation.cpp: slerpTransformations, interpolateTransformations"]}
{"id": "C85", "title": "Rodrigues parameters and rotation matrices", "statement": "Rodrigues parameters give a proper rotation, the turn about their direction by twice the arc tangent of their length, and are recovered from it.", "quantifier": "all parameter vectors", "why_tests_cant": "continuum", "anchors": ["Schweizer-Messer/sm_kinematics/src/EulerRodriguez.cpp: parametersToRotationMatrix, rotationMatrixToParameters"]}
{"id": "C86", "title": "Extended unified back-projection inverts projection", "statement": "For every admissible parameter pair, a point accepted by the projection is back-projected to its direction, and a keypoint the model can reach is back-projected to a unit ray that projects to the keypoint.", "quantifier": "all points and keypoints, all alpha in [0,1] and beta > 0", "why_tests_cant": "continuum of points and parameters; a case split in the field of view test", "anchors": ["aslam_cv/aslam_cameras/include/aslam_cameras/cameras/implementation/ExtendedUnifiedProjection.hpp: euclideanToKeypoint, keypointToEuclidean, updateTemporaries"]}
{"id": "C87", "title": "Double sphere back-projection inverts projection", "statement": "For every admissible parameter pair, a point accepted by the projection is back-projected to its direction, and a keypoint the model can reach is back-projected to a unit ray that projects to the keypoint.", "quantifier": "all points and keypoints, all alpha in [0,1] and xi in (-1,1]", "why_tests_cant": "continuum of points and parameters; the field of view test is wrong only for some parameters", "anchors": ["aslam_cv/aslam_cameras/include/aslam_cameras/cameras/implementation/DoubleSphereProjection.hpp: euclideanToKeypoint, keypointToEuclidean, updateTemporaries"]}
{"id": "C88", "title": "Target points lie where documented and never coincide", "statement": "A checkerboard, circle grid or April grid can be constructed exactly from positive sizes; its point in row r and column c lies at the documented position, every stored point is written, and two different indices never denote the same position.", "quantifier": "all numbers of rows and columns, all sizes and spacings, all contents of the freshly allocated storage", "why_tests_cant": "tests construct one or two boards; axis mix-ups are invisible on square boards", "anchors": ["aslam_cv/aslam_cameras/src/GridCalibrationTargetCheckerboard.cpp", "aslam_cv/aslam_cameras/src/GridCalibrationTargetCirclegrid.cpp", "aslam_cv/aslam_cameras_april/src/GridCalibrationTargetAprilgrid.cpp: createGridPoints"]}
{"id": "C89", "title": "April tag corners are stored at the point of the board they belong to", "statement": "Whatever the output arguments hold, extracting an April grid fails exactly when too few usable tags are seen, refuses exactly when a usable tag identifier appears twice, and otherwise stores each corner of each usable tag at the index of the board point where that corner lies, flags it exactly when refinement moved it little enough, and flags no other point.", "quantifier": "all board sizes, all lists of detections, all options, all refinements", "why_tests_cant": "tests use a few images; the space of detection lists is unbounded", "anchors": ["aslam_cv/aslam_cameras_april/src/GridCalibrationTargetAprilgrid.cpp: computeObservation"]}
{"id": "C90", "title": "The corner outlier filter removes exactly the outliers", "statement": "Filtering an observation removes exactly the corners whose reprojection error exceeds the mean by the given number of standard deviations and the absolute threshold, changes nothing else, never removes all corners, and removes at most a share of 1/sigma^2 of them.", "quantifier": "all observations, cameras, poses and thresholds", "why_tests_cant": "statistical worst cases and index misalignment are not reached by samples", "anchors": ["aslam_cv/aslam_cameras/src/GridDetector.cpp: findTarget"]}
{"id": "C91", "title": "Finding a target leaves an observation of the current image only", "statement": "Whatever an observation held before, after a target search it holds exactly the corners extracted from the current image less the outliers; the search succeeds exactly when extraction and pose estimation do; on success the pose is the estimate and on failure there is none.", "quantifier": "all earlier histories of the observation, all extraction results, all cameras", "why_tests_cant": "reuse histories are unbounded", "anchors": ["aslam_cv/aslam_cameras/src/GridDetector.cpp: findTarget, findTargetNoTransformation"]}
{"id": "C92", "title": "Iterative undistortion comes close to the undistorted point", "statement": "Undistorting the distorted image of a point returns that point up to a stated bound: for the radial-tangential distortion the five iterations square the error each time, for the equidistant distortion the twenty iterations shrink it by a constant factor each time.", "quantifier": "all points and parameters in stated ranges, and all points near which the distortion is regular", "why_tests_cant": "continuum; tests check a few hundred random points for one parameter set", "anchors": ["aslam_cv/aslam_cameras/include/aslam_cameras/cameras/implementation/RadialTangentialDistortion.hpp: undistort", "aslam_cv/aslam_cameras/include/aslam_cameras/cameras/implementation/EquidistantDistortion.hpp: undistort"]}
{"id": "C93", "title": "Expression values and Jacobians are the value and the derivative of the expression", "statement": "After an expression of rotations, points, scalars, homogeneous points, transformations and matrices is evaluated, the Jacobian it collects is the derivative of its value with respect to updates of its active design variables, whatever other evaluations happen in between and however nodes are shared; the value is that of the mathematical expression.", "quantifier": "all expression trees of the library nodes, all design variable values at which nothing is divided by zero, all increments, all interleaved evaluations, all contents of the node members before", "why_tests_cant": "unbounded trees, continuum of values, histories of shared mutable members", "anchors": ["aslam_optimizer/aslam_backend_expressions/src/RotationExpressionNode.cpp", "aslam_optimizer/aslam_backend_expressions/src/EuclideanExpressionNode.cpp", "aslam_optimizer/aslam_backend_expressions/src/HomogeneousExpressionNode.cpp", "aslam_optimizer/aslam_backend_expressions/src/TransformationExpressionNode.cpp", "aslam_optimizer/aslam_backend_expressions/src/TransformationBasic.cpp", "aslam_optimizer/aslam_backend_expressions/src/ScalarExpressionNode.cpp", "aslam_optimizer/aslam_backend_expressions/src/MatrixBasic.cpp"]}
{"id": "C94", "title": "An expression reports exactly the design variables it depends on", "statement": "The value of an expression depends on the reported design variables only, and every design variable with a Jacobian block is reported, so that no error term misses a variable.", "quantifier": "all expression trees and states", "why_tests_cant": "unbounded trees", "anchors": ["aslam_optimizer/aslam_backend_expressions/src/*ExpressionNode.cpp: getDesignVariablesImplementation"]}
{"id": "C95", "title": "Reverting an update restores the design variables", "statement": "Whatever updates and reverts came before, updating any set of expression design variables by any increments and reverting that set restores the value of every expression.", "quantifier": "all histories of updates and reverts, all sets of variables, all increments", "why_tests_cant": "unbounded histories", "anchors": ["aslam_optimizer/aslam_backend_expressions/src/RotationQuaternion.cpp", "aslam_optimizer/aslam_backend_expressions/src/EuclideanPoint.cpp", "aslam_optimizer/aslam_backend_expressions/src/Scalar.cpp", "aslam_optimizer/aslam_backend_expressions/src/HomogeneousPoint.cpp", "aslam_optimizer/aslam_backend_expressions/src/EuclideanDirection.cpp", "aslam_optimizer/aslam_backend_expressions/src/MatrixBasic.cpp"]}
{"id": "C96", "title": "Minimal difference undoes an update", "statement": "The minimal difference of an updated design variable to its old parameters is the increment of the update.", "quantifier": "all parameters and increments (shorter than a full turn for rotations)", "why_tests_cant": "continuum", "anchors": ["aslam_optimizer/aslam_backend_expressions/src/RotationQuaternion.cpp: minimalDifferenceImplementation", "aslam_optimizer/aslam_backend_expressions/src/EuclideanPoint.cpp", "aslam_optimizer/aslam_backend_expressions/src/Scalar.cpp", "aslam_optimizer/aslam_backend_expressions/src/HomogeneousPoint.cpp", "aslam_optimizer/aslam_backend_expressions/src/MappedRotationQuaternion.cpp"]}
{"id": "C97", "title": "Prior error terms and their Jacobians", "statement": "The error of a prior on a point or a transformation is zero at the prior, and the Jacobian it collects is the derivative of the error vector.", "quantifier": "all expressions, priors and increments", "why_tests_cant": "continuum, unbounded trees", "anchors": ["aslam_optimizer/aslam_backend_expressions/src/ErrorTermEuclidean.cpp", "aslam_optimizer/aslam_backend_expressions/src/ErrorTermTransformation.cpp"]}
{"id": "C98", "title": "Pose spline rates are the derivatives of the pose", "statement": "The pose returned by a pose spline is a rigid transformation; its linear velocity and acceleration are the first and second derivative of its position; its angular velocity is that of its orientation; body-frame quantities are the world-frame ones rotated by the inverse orientation; the angular acceleration in the body frame is the derivative of the angular velocity in the body frame.", "quantifier": "all orders, knots, coefficients and orientation families, all times strictly inside a segment", "why_tests_cant": "continuum of splines and times; tests compare finite differences at a few times", "anchors": ["aslam_nonparametric_estimation/aslam_bsplines/src/BSplinePose.cpp"]}
{"id": "C99", "title": "Pose spline Jacobians are the derivatives of the values", "statement": "Every method of a pose spline that returns a Jacobian returns, along with it, the value that the method without Jacobian returns, and the Jacobian is the derivative of that value with respect to changes of all the coefficients that take part.", "quantifier": "all orders, knots, coefficients, orientation families, times and increments", "why_tests_cant": "continuum; tests use finite differences at a few random splines", "anchors": ["aslam_nonparametric_estimation/aslam_bsplines/src/BSplinePose.cpp: *AndJacobian"]}
{"id": "C100", "title": "Expressions on a pose spline announce the right Jacobians for the right variables", "statement": "The expressions for pose, orientation, position, velocity, acceleration and angular rates of a pose spline hand out, for each of the design variables that take part, the Jacobian of their value times the chain rule matrix. When the time is an expression too, every time of the domain within the given margins can be evaluated, only design variables declared beforehand take part, and the Jacobian with respect to the time is the time derivative of the pose.", "quantifier": "all splines, times, margins, increments and chain rule matrices", "why_tests_cant": "continuum; index shifts appear only away from the start of the spline", "anchors": ["aslam_nonparametric_estimation/aslam_splines/src/BSplineExpressions.cpp"]}
{"id": "C101", "title": "The quadratic motion integrals of a spline are the integrals they claim to be", "statement": "The matrix returned for a weight and a derivative order is such that, for all coefficients, the quadratic form of the stacked coefficients is the integral over the valid time of the weighted squared derivative of the curve; the dense, sparse and diagonal versions return the same matrix; a weight matrix of the wrong size or that is not symmetric is rejected and no other.", "quantifier": "all orders, dimensions, knots (repeated ones included), coefficients, weights and derivative orders", "why_tests_cant": "continuum of splines; the integrals are not compared to anything in the tests", "anchors": ["aslam_nonparametric_estimation/aslam_bsplines/src/BSpline.cpp: curveQuadraticIntegral, curveQuadraticIntegralSparse, curveQuadraticIntegralDiag, curveQuadraticIntegralDiagSparse, segmentQuadraticIntegral"]}
{"id": "C102", "title": "The motion error of a spline is its motion integral and its normal equations are exact", "statement": "The motion error is the integral of the weighted squared derivative of the curve; the contribution to the normal equations makes the quadratic model of the optimizer equal to the error for every step of the active design variables.", "quantifier": "all splines, weights, derivative orders, active sets, steps and previous contents of the normal equations", "why_tests_cant": "continuum; active sets are exponential in number", "anchors": ["aslam_nonparametric_estimation/aslam_splines/include/aslam_splines/implementation/BSplineMotionError.hpp"]}
{"id": "C103", "title": "The motion error terms of a spline add up to its motion integral", "statement": "The error terms added for the motion of a spline have squared errors that add up to the motion integral of the curve that the design variables hold, now and after every update, and their Jacobians are the derivatives of their errors.", "quantifier": "all splines, positive semidefinite weights, derivative orders and update histories", "why_tests_cant": "continuum and unbounded histories", "anchors": ["aslam_nonparametric_estimation/aslam_splines/include/aslam_splines/implementation/BSplineMotionErrorFactory.hpp: addMotionErrorTerms", "aslam_nonparametric_estimation/aslam_bsplines/src/BSpline.cpp: segmentIntegral", "aslam_optimizer/aslam_backend/src/MarginalizationPriorErrorTerm.cpp"]}
{"id": "C104", "title": "A mapped vector design variable follows its updates", "statement": "Updating adds the increment, reverting restores the value from before the last change, setting parameters gives the value set, and the minimal difference to a vector is the difference of the present value to it.", "quantifier": "all values and histories", "why_tests_cant": "unbounded histories", "anchors": ["aslam_optimizer/aslam_backend_expressions/include/aslam_backend_expressions/implementation/DesignVariableMappedVector.hpp"]}
{"id": "C105", "title": "The error terms of an inertial measurement unit compare the measurement with the motion of the spline", "statement": "Each measurement strictly inside the valid time of the pose spline, and no other, gets an error term. Its error is the predicted minus the measured vector, its Jacobian is the derivative of the error for every update, and it reports the variables it depends on. The predicted rotation rate is that of the orientation of the spline, and the predicted acceleration is the specific force at the place of the accelerometer, both in the coordinates of the unit and with the present bias. With neutral values of their additional parameters the larger models predict what the smaller ones do.", "quantifier": "all pose and bias splines, orientation families, unit parameters, times, measurements, update directions and evaluation histories", "why_tests_cant": "continuum; tests use finite differences at one random time", "anchors": ["aslam_offline_calibration/kalibr/python/kalibr_imu_camera_calibration/IccSensors.py: addAccelerometerErrorTerms, addGyroscopeErrorTerms", "aslam_offline_calibration/kalibr/src/EuclideanError.cpp", "aslam_offline_calibration/kalibr/src/AccelerometerError.cpp", "aslam_offline_calibration/kalibr/src/GyroscopeError.cpp"]}
{"id": "C106", "title": "The reprojection error and all its Jacobians are those of the camera it was made for", "statement": "For an observable point, the reprojection error is the measurement minus the keypoint the camera gives for the point, and its Jacobian is the derivative of that error for every joint update of the variables behind the point, of the projection and of the distortion. Updates of the measurement change the error accordingly. The simple error does the same without the variables of the camera.", "quantifier": "all expressions for the point, cameras of all four projections and all distortions, parameters, measurements and update directions", "why_tests_cant": "continuum; the tests use finite differences at one random point", "anchors": ["aslam_cv/aslam_cv_error_terms/include/aslam_cv_error_terms/implementation/ReprojectionError.hpp", "aslam_cv/aslam_cv_error_terms/include/aslam_cv_error_terms/implementation/SimpleReprojectionError.hpp", "aslam_cv/aslam_cv_backend/include/aslam_cv_backend/implementation/CameraDesignVariable.hpp"]}
{"id": "C107", "title": "A camera can be treated as one vector of parameters", "statement": "For every choice of the parts to estimate, the update of a camera reads exactly the entries that its number of dimensions says, the stacked Jacobians of keypoint and of offset in time have one column for each of them and are the derivatives with respect to that vector, asking for the parameters gives the parts in the order of the update, and setting them gives a camera with exactly these parameters and leaves the other parts alone.", "quantifier": "all cameras, all eight choices of parts, all points, vectors and parameter columns", "why_tests_cant": "continuum times eight choices; only single parts are tested", "anchors": ["aslam_cv/aslam_cameras/include/aslam_cameras/cameras/implementation/CameraGeometry.hpp: update, minimalDimensions, getParameters, setParameters, euclideanToKeypointIntrinsicsJacobian, homogeneousToKeypointIntrinsicsJacobian, temporalOffsetIntrinsicsJacobian", "aslam_cv/aslam_cameras/src/FovDistortion.cpp: update"]}
{"id": "C108", "title": "The time of a keypoint is the time at which its row was read", "statement": "The time of a keypoint is the stamp of the image plus line delay times row to within a nanosecond, refused exactly when it cannot be represented; rows keep their order; a global shutter gives the stamp; the expression follows the line delay if the shutter is estimated and is constant otherwise; its Jacobian is the derivative.", "quantifier": "all stamps, line delays, rows and updates", "why_tests_cant": "continuum; the rounding changes at every nanosecond", "anchors": ["aslam_cv/aslam_cameras/include/aslam_cameras/cameras/RollingShutter.hpp: temporalOffset", "aslam_cv/aslam_cameras/include/aslam_cameras/implementation/Frame.hpp: keypointTime", "aslam_cv/aslam_cv_backend/include/aslam_cv_backend/implementation/ScalarExpressionNodeKeypointTime.hpp"]}
{"id": "C109", "title": "A constant spline is constant", "statement": "Initialising a spline as a constant over an interval gives a spline with the requested order, valid over exactly that interval and with the requested number of segments, whose value is the constant and whose derivatives vanish at every valid time. Empty intervals, no segments and empty vectors are rejected.", "quantifier": "all orders, intervals, numbers of segments, constants and times", "why_tests_cant": "continuum of times and constants, all orders", "anchors": ["aslam_nonparametric_estimation/aslam_bsplines/src/BSpline.cpp: initConstantSpline"]}
{"id": "C110", "title": "The coefficients of a spline can be read and written as vectors", "statement": "Setting the stacked coefficient vector and reading it back gives the vector; the vector of a time or of a segment is the part of the stacked vector at the indices reported for it; writing it changes these coefficients only; the value and the derivatives at a time are the matrix for the time times the vector of the time. Wrong sizes and indices are rejected.", "quantifier": "all splines, times, segments and vectors", "why_tests_cant": "all orders, dimensions and sizes; index arithmetic goes wrong away from the first segment", "anchors": ["aslam_nonparametric_estimation/aslam_bsplines/src/BSpline.cpp: setCoefficientVector, coefficientVector, setCoefficientMatrix, localCoefficientVector, localCoefficientVectorIndices, localVvCoefficientVectorIndices, segmentCoefficientVector, setLocalCoefficientVector, Phi"]}
{"id": "C111", "title": "The curve determines the coefficients", "statement": "Two splines on the same distinct knots whose values agree at all valid times have the same coefficients, and on every segment every polynomial of degree less than the order is the curve for exactly one choice of coefficients.", "quantifier": "all orders, knots without repetition, coefficients", "why_tests_cant": "an infinite family of linear systems must be nonsingular", "anchors": ["aslam_nonparametric_estimation/aslam_bsplines/src/BSpline.cpp: setKnotsAndCoefficients, evalD, M"]}
{"id": "C112", "title": "A spline through two points is the straight line between them", "statement": "Initialising a spline with two times and two points gives a spline that is valid between the times, starts at the first and ends at the second point, moves between them on a straight line with constant velocity, and has vanishing higher derivatives. Times that do not increase are rejected.", "quantifier": "all orders (even and odd), times and points", "why_tests_cant": "continuum; a linear system must be solvable for every order", "anchors": ["aslam_nonparametric_estimation/aslam_bsplines/src/BSpline.cpp: initSpline"]}
{"id": "C113", "title": "Appending a segment extends a spline", "statement": "Appending a segment for a time after the end and a point gives a spline that is valid up to the new time with one more segment, goes through the new point at the new end, is continuous with the old curve at the old end, and does not change the curve before. Times that are not after the end are rejected.", "quantifier": "all splines, times and points", "why_tests_cant": "continuum; knots away from the end change only for larger orders", "anchors": ["aslam_nonparametric_estimation/aslam_bsplines/src/BSpline.cpp: addCurveSegment, addCurveSegment2"]}
{"id": "C114", "title": "A fitted spline is the best one on its knots", "statement": "Fitting a spline to points gives the knots asked for and coefficients of least cost, the cost being the sum of the squared distances from the points plus a factor times the integral of a squared derivative of the curve (in one variant the squared factor times the sum of the squared accelerations at the borders of the segments). The dense and the sparse variants do the same. If the points can be matched exactly without cost, the curve passes through them. Fewer than two points, no segment or decreasing times are rejected.", "quantifier": "all orders, points, nondecreasing times, numbers of segments, factors, competing coefficients", "why_tests_cant": "minimality over a continuum of competitors", "anchors": ["aslam_nonparametric_estimation/aslam_bsplines/src/BSpline.cpp: initSpline2, initSpline3, initSplineSparse, initSplineSparseKnots"]}
{"id": "C115", "title": "Marginal covariances are entries of the inverse Hessian", "statement": "From the Cholesky factor of a symmetric matrix, with or without a fill-reducing permutation, the covariance functions deliver the blocks asked for and no others (the diagonal blocks, the upper triangle, or a list of blocks), each at the right place and holding the entries of the inverse of the matrix. A matrix that is not positive definite is an exception.", "quantifier": "all sizes, sparsity patterns of the factor, permutations, block structures and lists of blocks", "why_tests_cant": "the recursion over the pattern of the factor visits entries in an order that depends on every one of them; the index overflows only at sizes no test uses", "anchors": ["aslam_optimizer/aslam_sparse_block_matrix/src/marginal_covariance_cholesky.cpp: computeEntry, computeCovariance", "aslam_optimizer/aslam_backend/src/Optimizer.cpp: computeCovariances, computeDiagonalCovariances"]}
{"id": "C116", "title": "Marginalising variables loses nothing", "statement": "Marginalising the first variables out of a least squares problem gives an error term on the remaining variables whose cost, up to a constant, is the least cost of the linearised problem over all displacements of the removed variables; its Jacobians are the derivatives of its error. The indices of all variables and error terms are as before, also after an exception. The covariance of the first rows is the corresponding block of the inverse of the normal matrix. Variables or terms given twice, too few equations, and removing every variable are rejected.", "quantifier": "all lists of variables and error terms of any dimensions, all numbers of variables to remove, all displacements", "why_tests_cant": "quantifies over displacements in a continuum and over all problem structures; the exceptions leave hidden state behind", "anchors": ["aslam_optimizer/aslam_backend/src/Marginalizer.cpp: marginalize", "aslam_optimizer/aslam_backend/src/MarginalizationPriorErrorTerm.cpp", "aslam_optimizer/aslam_backend/src/DenseQrLinearSystemSolver.cpp: buildSystem"]}
{"id": "C117", "title": "Solving with one group of unknowns eliminated", "statement": "The linear solver of the incremental calibration eliminates the first group of unknowns by an orthogonal factorisation and solves for the second by singular values. A call that returns a step returns a least squares solution of the whole system, whatever the column scaling; the singular values and vectors it reports describe the information the equations carry about the second group, and the reported covariance is the inverse of that information at full rank. The reported rank is the number of singular values above the tolerance. Systems of wrong sizes, with an empty group, or with too few equations are refused without a step.", "quantifier": "all systems, sizes, groupings, tolerances and scalings, and all histories of earlier analyses", "why_tests_cant": "One component of the residual is lost for every system, which a test with consistent equations does not show; the claim is about all right hand sides.", "anchors": ["aslam_incremental_calibration/aslam_incremental_calibration/src/core/LinearSolver.cpp: LinearSolver::solve, analyzeMarginal, solveSystem, getNullSpace, getCovariance, clear", "aslam_incremental_calibration/aslam_incremental_calibration/src/algorithms/linalg.cpp: columnSubmatrix, rowSubmatrix, columnScalingMatrix, estimateNumericalRank, rankTol, svGap, reduceLeftHandSide, reduceRightHandSide, solveSVD, solveQR"]}
{"id": "C118", "title": "Information about one group of unknowns", "statement": "marginalize() splits the columns of a Jacobian into two groups and returns the information matrix of the second: for all values of the second group, its quadratic form is the least sum of squares the first group can leave. The covariance returned is its inverse at full rank and a generalised inverse otherwise, the null space and column space returned are an orthonormal basis split by rank, the projected covariance is the covariance in that basis, and the logarithms added are those of factors of the determinant.", "quantifier": "all Jacobians, groupings and tolerances", "why_tests_cant": "A statement about a minimum over all values of one group for all values of the other, and about all ranks.", "anchors": ["aslam_incremental_calibration/aslam_incremental_calibration/src/algorithms/marginalize.cpp: marginalJacobian, marginalize"]}
{"id": "C119", "title": "Reading a recording", "statement": "Reading the messages of a topic delivers every message once, in the order of the header stamps. With a time window it delivers exactly the messages whose stamp lies in the window, counted from the first stamp. An empty recording or a window that does not end after it starts is an exception.", "quantifier": "all recordings, in whatever order the messages were recorded, and all windows", "why_tests_cant": "recordings in which the order of arrival differs from the order of the stamps are rare and unbounded in shape", "anchors": ["aslam_offline_calibration/kalibr/python/kalibr_common/ImageDatasetReader.py: BagImageDatasetReader", "aslam_offline_calibration/kalibr/python/kalibr_common/ImuDatasetReader.py: BagImuDatasetReader"]}
{"id": "C120", "title": "Extraction of targets with several workers", "statement": "Extracting the target from the images of a camera with several worker processes delivers the observations that the extraction without workers delivers, in the order of the images, however many workers there are and in whatever order they are scheduled; it ends, and an error of the detector is an error of the extraction.", "quantifier": "all numbers of images and workers, all schedules, all results of the detector", "why_tests_cant": "depends on the schedule of the processes and on the point at which one of them dies", "anchors": ["aslam_offline_calibration/kalibr/python/kalibr_common/TargetExtractor.py: multicoreExtractionWrapper, extractCornersFromDataset"]}
{"id": "C121", "title": "The observations of a rig are grouped into views", "statement": "Adding observations of several cameras, in any order, gives views in which each camera has at most one observation and all of them are within the tolerance of the time of the view; different views are further apart than the tolerance. Each observation is in one view, or it is refused because its camera is in a near view already. The queries for one camera and for pairs of cameras deliver just what is in the views. If the images come in groups within the tolerance, the views are the groups in whatever order they are added.", "quantifier": "all histories of added observations, all tolerances", "why_tests_cant": "the views depend on the whole history of insertions", "anchors": ["aslam_offline_calibration/kalibr/python/kalibr_camera_calibration/ObsDb.py: ObservationDatabase"]}
{"id": "C122", "title": "The graph of common views", "statement": "In the graph two cameras are joined exactly if in some view they see a corner in common, with the number of common corners over all the views as weight. There is at most one edge between two cameras and none from a camera to itself. The common observations of two cameras are delivered in pairs and in order. The graph is built for every set of observations.", "quantifier": "all histories of observations, all orders in which pairs of cameras are visited", "why_tests_cant": "quantifies over all databases; python dictionaries fix no order", "anchors": ["aslam_offline_calibration/kalibr/python/kalibr_camera_calibration/MulticamGraph.py: MulticamCalibrationGraph.initializeGraphFromObservations, getAllMutualObsBetweenTwoCams"]}
{"id": "C123", "title": "Initial baselines and target poses come from the graph", "statement": "If every chosen pair of cameras is calibrated exactly, the initial baselines are the transformations from each camera to the next, whichever edges and paths were chosen; and the initial pose of the target in a view is its pose in the frame of the first camera, computed from a camera that sees most corners.", "quantifier": "all graphs, choices of edges and paths, numbers of cameras, all groups of transformations", "why_tests_cant": "induction over paths in an arbitrary graph", "anchors": ["aslam_offline_calibration/kalibr/python/kalibr_camera_calibration/MulticamGraph.py: getInitialGuesses, getTargetPoseGuess"]}
{"id": "C124", "title": "Error terms of a view", "statement": "The problem of a view has exactly one error term for each corner that each camera sees, comparing it with the projection through the chain of baselines up to that camera. The statistics of a corner are those of its own error term. The list of reprojection errors of a camera has one place per view.", "quantifier": "all rigs, views and sets of corners", "why_tests_cant": "all combinations of cameras and corners seen", "anchors": ["aslam_offline_calibration/kalibr/python/kalibr_camera_calibration/CameraCalibrator.py: OptimizationProblem.addView, CalibrationTargetOptimizationProblem.fromTargetViewObservations, getPointStatistics, getReprojectionErrors"]}
{"id": "C125", "title": "The outlier filter of the camera calibration", "statement": "The filter does not fail whatever the estimator answers; at the end the views of the calibrator are the batches of the estimator and hold the corners left in their observations. A corner is removed if and only if when its view was checked its error was larger than four standard deviations of its camera, so that few corners are removed. A restart after a divergence begins as the first attempt did.", "quantifier": "all answers of the estimator, all orders of the views, all observations and settings", "why_tests_cant": "a loop whose state depends on every earlier decision of the estimator; restarts at arbitrary points", "anchors": ["aslam_offline_calibration/kalibr/python/kalibr_calibrate_cameras: main", "aslam_offline_calibration/kalibr/python/kalibr_camera_calibration/CameraCalibrator.py: CameraCalibration.addTargetView, removeCornersFromBatch"]}
{"id": "C126", "title": "Adaptive knot sequences of the rolling shutter calibration", "statement": "The new knot sequence is strictly increasing and consists of old knots and middles of old segments. A segment is split exactly if the sum of the errors in it is larger than the number of its terms, its halves are longer than the limit and it is not disabled; knots without observations are dropped. Each observation counts for the segment it lies in. A strategy does not depend on other strategies, and the new spline covers the time of the old one.", "quantifier": "all knot sequences, observations, errors and histories of a strategy", "why_tests_cant": "depends on the history of the strategy and on where observations lie relative to the knots", "anchors": ["aslam_offline_calibration/kalibr/python/kalibr_rs_camera_calibration/ReprojectionErrorKnotSequenceUpdateStrategy.py"]}
{"id": "C127", "title": "Configuration files survive writing and reading", "statement": "Parameters of a camera are accepted exactly if the model is known and they have the right number, types and ranges; what is set is what is read; and the file written by the camera calibration is read back as the same chain of cameras with the same parameters and baselines, and is always written. Accepted parameters are a camera with a geometry. Parameters of a target that are wrong are reported as such.", "quantifier": "all models, parameters, chains and baselines", "why_tests_cant": "all combinations of models and numbers", "anchors": ["aslam_offline_calibration/kalibr/python/kalibr_common/ConfigReader.py: CameraParameters, AslamCamera, CameraChainParameters, CalibrationTargetParameters, ImuSetParameters", "aslam_offline_calibration/kalibr/python/kalibr_camera_calibration/CameraCalibrator.py: saveChainParametersYaml"]}
{"id": "C128", "title": "The time shift between a camera and a measurement unit is found", "statement": "When a camera and an inertial unit, or two units, record the same motion and one clock is behind the other, the initial time shift is the difference of the clocks; if the recordings have no time in common the program says so.", "quantifier": "all recordings, lengths, rates and shifts", "why_tests_cant": "holds for all signals, not for a sample of them", "anchors": ["aslam_offline_calibration/kalibr/python/kalibr_imu_camera_calibration/IccSensors.py: IccCamera.findTimeshiftCameraImuPrior, IccImu.findOrientationPrior"]}
{"id": "C129", "title": "Rotation vectors of a turning camera do not flip", "statement": "Before a spline is fitted to the poses of a camera, each rotation vector is replaced by one of the same rotation, such that vectors that follow each other are close if the rotations are: the angle of a camera that turns on and on goes on growing.", "quantifier": "all sequences of rotations", "why_tests_cant": "all lengths of sequences and all rotations", "anchors": ["aslam_offline_calibration/kalibr/python/kalibr_imu_camera_calibration/IccSensors.py: initPoseSplineFromCamera", "aslam_offline_calibration/kalibr/python/kalibr_rs_camera_calibration/RsCalibrator.py: __ensureContinuousRotationVectors"]}
{"id": "C130", "title": "The results of a camera to inertial calibration are those of its error terms", "statement": "The transformation that is reported and written for a camera is the one its error terms used; baselines are the transformations between the cameras; the time shift is the one by which its images were moved; the file that is written holds all of them and the parameters that the cameras had. The pose written for a unit takes coordinates of the body to those of the unit.", "quantifier": "all numbers of cameras, transformations and shifts, all files", "why_tests_cant": "induction over chains of any length; quantifies over every input file", "anchors": ["aslam_offline_calibration/kalibr/python/kalibr_imu_camera_calibration/IccSensors.py: IccCameraChain.getResultBaseline, getResultTrafoImuToCam, getResultTimeShift, addCameraChainErrorTerms, IccImu.updateImuConfig", "aslam_offline_calibration/kalibr/python/kalibr_imu_camera_calibration/IccCalibrator.py: saveCamChainParametersYaml"]}
{"id": "C131", "title": "Rolling shutter calibration pairs image points with their corners", "statement": "Every image point that was seen is compared with the projection of its own corner, with the weight that the given variance demands; an image whose pose is not found is left out with a warning; what is estimated depends on the camera that is calibrated and not on earlier ones.", "quantifier": "all sets of corners seen in the images, all answers of the pose solver, all sequences of calibrations", "why_tests_cant": "all combinations of corners seen; histories of calibrations in one process", "anchors": ["aslam_offline_calibration/kalibr/python/kalibr_rs_camera_calibration/RsCalibrator.py: RsCalibrator.calibrate, __buildOptimizationProblem, __generateExtrinsicsInitialGuess, RsCalibratorConfiguration.validate", "aslam_offline_calibration/kalibr/python/kalibr_calibrate_rs_cameras"]}
{"id": "C132", "title": "All images inside the time of the spline are used", "statement": "A camera to inertial calibration uses every image of the first camera and of the others those inside its time, each with all the corners seen at the time of the image moved by the time shift; the number of images it says it has used is right; a change of the shift within the padding does not take an image out of the range of the spline.", "quantifier": "all images, shifts and paddings", "why_tests_cant": "all time stamps and shifts, boundaries included", "anchors": ["aslam_offline_calibration/kalibr/python/kalibr_imu_camera_calibration/IccSensors.py: IccCamera.initPoseSplineFromCamera, addCameraErrorTerms"]}
{"id": "C133", "title": "A printed April grid is read as the target that was configured", "statement": "A board is printed exactly if the spacing is allowed and there is a code for each tag. When an image shows a printed tag, the detector reports the tag with the identifier it has on the board, whichever corner the search started at, and its four corners in the order of the board; the target built with the numbers of the board stores each of them with the point at which that corner is printed.", "quantifier": "all numbers of tags, sizes, spacings, blank tags, views, grey levels and start corners", "why_tests_cant": "quantifies over every board, view and image; depends on the agreement of a script, a table, a decoder and a target that do not share code", "anchors": ["aslam_offline_calibration/kalibr/python/kalibr_create_target_pdf: generateAprilTag, generateAprilBoard", "aslam_offline_calibration/aslam_apriltag2/src/TagDetector.cc: extractTags", "aslam_offline_calibration/aslam_apriltag2/src/Quad.cc: interpolate, interpolate01", "aslam_offline_calibration/aslam_apriltag2/src/GrayModel.cc: compute, interpolate", "aslam_cv/aslam_cameras_april/src/GridCalibrationTargetAprilgrid.cpp: computeObservation"]}
{"id": "C134", "title": "A printed checkerboard has the corners of the target that was configured", "statement": "The printed board has the configured number of inner corners, around each of which black and white boxes alternate; a target built with its numbers has its shape; and the board can be told from the same board turned by half a turn.", "quantifier": "all numbers of rows and columns and all sizes", "why_tests_cant": "quantifies over every board and every point of it", "anchors": ["aslam_offline_calibration/kalibr/python/kalibr_create_target_pdf: generateCheckerboard", "aslam_cv/aslam_cameras/src/GridCalibrationTargetCheckerboard.cpp: createGridPoints"]}
{"id": "C135", "title": "Every loop of four segments is tried as the outline of a tag, and only once", "statement": "The search for outlines examines exactly the closed chains of four segments in which each segment is a successor of the one before; a loop in which one segment has a greater angle than the others is examined exactly once, from that segment.", "quantifier": "all sets of segments, successor relations and angles", "why_tests_cant": "quantifies over every graph of segments", "anchors": ["aslam_offline_calibration/aslam_apriltag2/src/Quad.cc: Quad::search", "aslam_offline_calibration/aslam_apriltag2/src/TagDetector.cc: extractTags (step seven)"]}
{"id": "C136", "title": "Outlines that wind the wrong way, cross themselves or are degenerate are refused", "statement": "In general position the winding test accepts exactly the quadrilaterals that bend to the wrong side at no more than one corner: all convex outlines with the right sense of rotation, none with the other and none that cross themselves. The corners of an accepted outline lie on the segments that meet there, no side or diagonal is shorter than six pixels and no side more than 32 times as long as another. Whether an outline is accepted does not depend on where in the image it is.", "quantifier": "all segments and all real positions of the corners", "why_tests_cant": "quantifies over all quadrilaterals; the test is a sum of four wrapped angles", "anchors": ["aslam_offline_calibration/aslam_apriltag2/src/Quad.cc: Quad::search", "aslam_offline_calibration/aslam_apriltag2/src/GLine2D.cc: intersectionWith", "aslam_offline_calibration/aslam_apriltag2/include/aslam_apriltag2/MathUtil.h: mod2pi"]}
{"id": "C137", "title": "The spatial index neither loses nor repeats segments", "statement": "A search in the table of positions ends; it delivers each object of the visited cells once, every object added in the rectangle within range of the position, and nothing further than one cell beyond the range. The successors of a segment hence contain no segment twice and every segment that starts near its end and passes the tests.", "quantifier": "all histories of insertions, positions, ranges and sizes of the table", "why_tests_cant": "quantifies over all insertions and queries; truncation towards zero and clamping at the border", "anchors": ["aslam_offline_calibration/aslam_apriltag2/include/aslam_apriltag2/Gridder.h: Gridder, Iterator", "aslam_offline_calibration/aslam_apriltag2/src/TagDetector.cc: extractTags (step six)"]}
{"id": "C138", "title": "Each tag in the image is reported once, by its best detection", "statement": "Of several detections of the same identifier that overlap, exactly one is reported; it has the smallest number of wrong bits and, among those, the longest perimeter. Nothing is reported that was not detected.", "quantifier": "all lists of detections", "why_tests_cant": "quantifies over all lists of detections in every order", "anchors": ["aslam_offline_calibration/aslam_apriltag2/src/TagDetector.cc: extractTags (step nine)", "aslam_offline_calibration/aslam_apriltag2/src/TagDetection.cc: overlapsTooMuch"]}
{"id": "C139", "title": "The segment fitted to the pixels of an edge is the best one and points the right way", "statement": "The line fitted to weighted pixels has the least weighted sum of squared perpendicular distances of all lines; the segment reaches exactly from the first to the last foot of the pixels on it; its direction leaves the greater part of the gradient on one and the same side.", "quantifier": "all lists of weighted points and gradients", "why_tests_cant": "quantifies over all point sets and all competing lines", "anchors": ["aslam_offline_calibration/aslam_apriltag2/src/GLine2D.cc: lsqFitXYW, getLineCoordinate, getPointOfCoordinate", "aslam_offline_calibration/aslam_apriltag2/src/GLineSegment2D.cc: lsqFitXYW", "aslam_offline_calibration/aslam_apriltag2/src/TagDetector.cc: extractTags (step five)"]}
{"id": "C140", "title": "Smoothing the image does not distort it", "statement": "Before gradients are taken, each pixel of the image is replaced by the weighted mean of its neighbours in the row and then in the column, values beyond the border being those of the border; the weights are not negative, symmetric and add up to one, so the result stays within the range of the image.", "quantifier": "all images at least as large as the kernel, all kernels, all pixels", "why_tests_cant": "quantifies over all images and all pixels; the error shows only in the first columns of the lower rows", "anchors": ["aslam_offline_calibration/aslam_apriltag2/src/Gaussian.cc: makeGaussianFilter, convolveSymmetricCentered", "aslam_offline_calibration/aslam_apriltag2/src/FloatImage.cc: filterFactoredCentered"]}
{"id": "C141", "title": "Pixels are grouped into one edge only if they belong together", "statement": "Two pixels get into one group only along a chain of touching pixels that have a gradient of at least the threshold and directions within thirty degrees of each other; the range of directions and magnitudes kept for a group is that of its pixels; two similar neighbours stay apart only if their groups are large; this holds in whatever order the pairs are treated.", "quantifier": "all images, all orders of the pairs", "why_tests_cant": "quantifies over all images and all orders of merging; directions are periodic", "anchors": ["aslam_offline_calibration/aslam_apriltag2/src/Edge.cc: edgeCost, calcEdges, mergeEdges", "aslam_offline_calibration/aslam_apriltag2/src/TagDetector.cc: extractTags (steps two and three)", "aslam_offline_calibration/aslam_apriltag2/include/aslam_apriltag2/UnionFindSimple.h: UnionFindSimple"]}
{"id": "C142", "title": "The iterative solver solves the system it is given to the requested accuracy", "statement": "For a symmetric positive definite sparse block matrix the conjugate gradient solver ends after at most as many iterations as there are unknowns with a remainder, measured with the diagonal blocks, of at most the tolerance times that of the right hand side; with tolerance zero the solution is exact; the reported residual belongs to the returned solution; a call stopped early still returns a point with a lower value of the quadratic function than zero; the solver can be used again for the same matrix with new numbers.", "quantifier": "all sizes, block layouts, positive definite matrices, right hand sides, tolerances and histories of calls", "why_tests_cant": "quantifies over all matrices; the termination after n steps is an induction over conjugate directions; what one call leaves behind changes the next", "anchors": ["aslam_optimizer/aslam_sparse_block_matrix/include/aslam_sparse_block_matrix/linear_solver_pcg.h: LinearSolverPCG", "aslam_optimizer/aslam_sparse_block_matrix/include/aslam_sparse_block_matrix/implementation/linear_solver_pcg.hpp: solve, mult, multDiag"]}
{"id": "C143", "title": "The starting point of the camera calibration is the truth when the data are exact, and survives a minority of bad views", "statement": "The initial baseline of two cameras is the component-wise median over the views that both see: if more than half of them yield the same rotation and translation, that is the result. When the single view poses and image points are exact, each problem (one camera, two cameras, all cameras) starts at the true poses and there every error term compares a point with itself. Each corner seen by each camera gives exactly one error term, and every design variable a term depends on is in the problem exactly once. A failed optimisation reports failure and returns the starting baseline.", "quantifier": "all lists of views, observations, camera counts and poses", "why_tests_cant": "quantifies over all sets of views and all bad minorities; rotation vectors jump at half turns", "anchors": ["aslam_offline_calibration/kalibr/python/kalibr_camera_calibration/CameraIntializers.py: stereoCalibrate, calibrateIntrinsics, solveFullBatch"]}
{"id": "C144", "title": "Solving the linear system gives the damped Gauss-Newton step of the system that was built", "statement": "After initialisation of a linear system solver, in whatever order errors are evaluated, systems built, conditioners set and systems solved, a call of the solver returns normally. The step minimises |J x - e|^2 + |c x|^2, where J and e are Jacobian and error of the system built last (also if the error has been evaluated since, at a step that was rejected) and c is the conditioner set last, or none if none was asked for; and a step is returned whenever it is determined.", "quantifier": "all problems, thread orders, histories of calls, conditioners", "why_tests_cant": "quantifies over all histories; a stale factorisation, a diagonal left in the matrix or an error vector of another state shows only in some", "anchors": ["aslam_optimizer/aslam_backend/src/SparseCholeskyLinearSystemSolver.cpp", "aslam_optimizer/aslam_backend/src/SparseQrLinearSystemSolver.cpp", "aslam_optimizer/aslam_backend/src/DenseQrLinearSystemSolver.cpp", "aslam_optimizer/aslam_backend/src/LinearSystemSolver.cpp", "aslam_optimizer/aslam_backend/include/aslam_backend/backend/implementation/Cholmod.hpp"]}
{"id": "C145", "title": "Operations on uncertain transformations, points and vectors carry the covariance over to first order", "statement": "The product and inverse of uncertain transformations, their action on homogeneous points, sums and differences of points, conversion to Euclidean points, normalisation, and the arithmetic of uncertain vectors and numbers return as covariance that of the linearised result when the operands are disturbed independently with their covariances. The covariance stays symmetric and positive semidefinite, products are associative, inverting twice and converting to the form of the optimizer update and back change nothing, and Jacobians of points are the derivatives along the update.", "quantifier": "all transformations, points, vectors, dimensions, covariances and disturbances", "why_tests_cant": "quantifies over all poses and covariances; a wrong sign or a missing scale shows only for correlated or scaled inputs", "anchors": ["Schweizer-Messer/sm_kinematics/src/UncertainTransformation.cpp", "Schweizer-Messer/sm_kinematics/src/UncertainHomogeneousPoint.cpp", "Schweizer-Messer/sm_kinematics/src/HomogeneousPoint.cpp", "Schweizer-Messer/sm_kinematics/src/homogeneous_coordinates.cpp", "Schweizer-Messer/sm_kinematics/include/sm_kinematics/implementation/UncertainVector.hpp", "Schweizer-Messer/sm_kinematics/src/Transformation.cpp: operator*(UncertainTransformation), operator*(UncertainHomogeneousPoint), rotate(UncertainVector3)"]}
{"id": "C146", "title": "A normal distribution is the one of its mean and covariance", "statement": "After any calls of the setters the members of a normal distribution agree with the last mean and the last accepted variance. Its density is that of the normal distribution and integrates to one, also in several dimensions; the cumulative distribution is the integral of the density; the divergence of two distributions is the expected logarithm of the quotient of the densities, never negative and zero only for equal ones; a sample is the mean plus a square root of the covariance times the draw. A covariance that is not positive definite is refused, and a refused one changes nothing.", "quantifier": "all means, variances, covariances, dimensions, arguments and sequences of setter calls", "why_tests_cant": "quantifies over real parameters and dimensions, and integrals of densities are not observable in a test", "anchors": ["aslam_incremental_calibration/aslam_incremental_calibration/src/statistics/NormalDistribution1v.cpp", "aslam_incremental_calibration/aslam_incremental_calibration/include/aslam_incremental_calibration/statistics/NormalDistributionMv.tpp"]}
{"id": "C147", "title": "The maximum likelihood estimators return the most likely normal distribution", "statement": "After any sequence of adding points, one by one, in groups or with weights, and of resets, the estimator holds the number of points since the last reset, and its mean and variance are those for which the sample, every point counted with its weight, is most likely among all normal distributions. How points are grouped into calls does not matter. The same holds for vectors.", "quantifier": "all histories of calls, all points, weights and dimensions; all competing distributions", "why_tests_cant": "quantifies over all histories and over all competing distributions", "anchors": ["aslam_incremental_calibration/aslam_incremental_calibration/src/statistics/EstimatorMLNormal1v.cpp", "aslam_incremental_calibration/aslam_incremental_calibration/include/aslam_incremental_calibration/statistics/EstimatorMLNormalMv.tpp"]}
{"id": "C148", "title": "A uniform distribution is the one of its support", "statement": "A support is refused exactly when a lower end is not below its upper end. After any calls of the setters the density, for integers the probability, is constant on the last accepted support, zero elsewhere, and integrates or sums to one. The mean, median, variance and covariance reported are those of the density. A sample lies in the support, every point of the support is a sample, and samples come up as often as the density says.", "quantifier": "all supports, dimensions, arguments, draws and sequences of setter calls", "why_tests_cant": "quantifies over all supports and draws; a wrong mean is not seen with supports that begin at zero", "anchors": ["aslam_incremental_calibration/aslam_incremental_calibration/include/aslam_incremental_calibration/statistics/UniformDistribution1v.tpp", "aslam_incremental_calibration/aslam_incremental_calibration/include/aslam_incremental_calibration/statistics/UniformDistributionMv.tpp", "aslam_incremental_calibration/aslam_incremental_calibration/include/aslam_incremental_calibration/statistics/Randomizer.tpp: sampleUniform"]}
{"id": "C149", "title": "A gamma or chi square distribution is the one of its shape and rate", "statement": "A shape or rate that is not positive is refused. After any calls of the setters the density is that of the gamma distribution of the last accepted shape and rate, it integrates to one, the mean and the variance reported are its mean and variance, the mode is where the density is largest, the cumulative distribution is its integral, and the divergence is the expected logarithm of the quotient of the densities. A chi square distribution of k degrees has mean k and variance 2 k. The logarithms of the factorial and of the gamma function, also in several dimensions, are what they say.", "quantifier": "all shapes, rates, degrees, arguments, dimensions and sequences of setter calls", "why_tests_cant": "quantifies over real parameters; a divergence with a wrong argument agrees with the right one for equal shapes", "anchors": ["aslam_incremental_calibration/aslam_incremental_calibration/include/aslam_incremental_calibration/statistics/GammaDistribution.tpp", "aslam_incremental_calibration/aslam_incremental_calibration/src/statistics/ChiSquareDistribution.cpp", "aslam_incremental_calibration/aslam_incremental_calibration/include/aslam_incremental_calibration/functions/LogGammaFunction.tpp", "aslam_incremental_calibration/aslam_incremental_calibration/src/functions/LogGammaFunction.cpp", "aslam_incremental_calibration/aslam_incremental_calibration/src/functions/LogFactorialFunction.cpp", "aslam_incremental_calibration/aslam_incremental_calibration/src/functions/IncompleteGammaPFunction.cpp"]}
{"id": "C150", "title": "Exponential, geometric, Poisson and categorical samples have the distributions they are named after", "statement": "When the draws are uniform on the unit interval, an exponential sample is at most x with probability 1 - exp(-rate x), a geometric sample is k with probability (1 - p)^k p, a Poisson sample is the number of arrivals at rate one before the time given by the mean, and a categorical sample is each category with its probability. Arguments outside the domain are refused, and a category of probability zero never comes up.", "quantifier": "all parameters and all draws", "why_tests_cant": "quantifies over all draws; frequencies in a test only approximate probabilities", "anchors": ["aslam_incremental_calibration/aslam_incremental_calibration/include/aslam_incremental_calibration/statistics/Randomizer.tpp: sampleExponential, sampleGeometric, samplePoisson, sampleCategorical"]}
{"id": "C151", "title": "A histogram counts the samples in range and its statistics are theirs to half a bin", "statement": "After any samples have been added to a histogram of any dimension, every bin holds the number of samples in range that belong to it, the sum of the bins is the number of samples in range, other samples change nothing, and the normalised histogram sums to one. Of a histogram of one dimension the mean is that of the samples in range to half a bin, half of the samples in range are below and half above the median to half a bin, the mode is the centre of a bin than which no other holds more, and the variance is that of the samples in range moved to the centres of their bins.", "quantifier": "all ranges, resolutions, dimensions and sequences of samples", "why_tests_cant": "quantifies over all samples, also on borders of bins and at the upper end", "anchors": ["aslam_incremental_calibration/aslam_incremental_calibration/include/aslam_incremental_calibration/statistics/HistogramMv.tpp", "aslam_incremental_calibration/aslam_incremental_calibration/include/aslam_incremental_calibration/statistics/Histogram1v.tpp"]}
{"id": "C152", "title": "The Jacobian of a generic scalar expression is its derivative", "statement": "For any expression built from scalar design variables and constants by sums, differences, products, quotients, negation and conversion, the Jacobian blocks it adds, with or without a chain rule, are the derivative of its value along every increment of the design variables, also when a variable occurs several times. Reverting an update restores the value, and the minimal difference to the value before an update is the increment.", "quantifier": "all expressions, values, chain rules and increments", "why_tests_cant": "quantifies over all expression trees and all values", "anchors": ["aslam_optimizer/aslam_backend_expressions/include/aslam_backend_expressions/implementation/GenericScalarExpression.hpp", "aslam_optimizer/aslam_backend_expressions/include/aslam_backend_expressions/implementation/GenericScalar.hpp"]}
{"id": "C153", "title": "Fixed point numbers round towards zero and are exact otherwise", "statement": "Sums, differences and negations of fixed point numbers are exact whenever the type can hold the result. Products, quotients and conversions from real numbers and between resolutions give the exact result with the digits below the resolution dropped. Conversion to a real number and back is the identity, and numbers compare equal exactly when their values are equal.", "quantifier": "all widths, resolutions and numbers", "why_tests_cant": "quantifies over all numbers, also negative ones and those at the ends of the range", "anchors": ["aslam_optimizer/aslam_backend_expressions/include/aslam_backend_expressions/FixedPointNumber.hpp"]}
{"id": "C154", "title": "Arrays and matrices cross the language border unchanged", "statement": "An array of one or two dimensions passed from Python to a function that takes a matrix arrives with the same elements in the same places, whatever its strides (views, transposes, reversed arrays). It is refused exactly when the matrix type cannot have that size, and left to other converters when its element type is not accepted. An array of one dimension becomes a row for types with one row, and a column otherwise. A matrix returned to Python and passed back is the same matrix.", "quantifier": "all matrix types, fixed, bounded or dynamic; all sizes, strides, element types and elements", "why_tests_cant": "quantifies over all shapes, strides and element values", "anchors": ["Schweizer-Messer/sm_numpy_eigen/include/sm_numpy_eigen/NumpyEigenConverter.hpp", "Schweizer-Messer/sm_numpy_eigen/include/sm_numpy_eigen/copy_routines.hpp", "Schweizer-Messer/sm_numpy_eigen/include/sm_numpy_eigen/type_traits.hpp"]}
{"id": "C155", "title": "Masks tell where two cameras overlap", "statement": "A mask set from a matrix of pixel values reads back as that matrix, and a keypoint is valid exactly if its pixel, after scaling, is not zero. The overlap of two cameras marks exactly the pixels on whose ray, at one of the given distances, there is a point that the other camera sees, in the masks of both cameras at the given scale; the ratio is the share of marked pixels. What is asked for is what the caller gets, whatever masks are passed.", "quantifier": "all cameras, transformations, distances, scales and masks passed in", "why_tests_cant": "quantifies over all cameras and over the sizes and sharing of the masks passed in", "anchors": ["aslam_cv/aslam_cameras/src/ImageMask.cpp", "aslam_cv/aslam_cameras/include/aslam_cameras/cameras/ImageMask.hpp: isValid", "aslam_cv/aslam_imgproc/src/calculateOverlappingFov.cpp"]}
{"id": "C156", "title": "A bag extracted to files and packed again is the same bag", "statement": "Extracting the images of a bag to a folder and packing the folder again gives a bag with the same images at the same times to the nanosecond, none lost and none added, in order of time. The same holds for inertial measurements.", "quantifier": "all data sets, all orders in which the folder lists its files", "why_tests_cant": "quantifies over all time stamps and listings of the folder; the order fails only when a second gets another digit", "anchors": ["aslam_offline_calibration/kalibr/python/kalibr_bagextractor", "aslam_offline_calibration/kalibr/python/kalibr_bagcreater"]}
{"id": "C157", "title": "Calibrations exported to other programs say the same", "statement": "The configuration written for OKVIS, ROVIO and MSF has, in the conventions of these programs, the transformation between camera and sensor, the camera matrix, the distortion, the size of the image, the topic and the time shift of the calibration, for every camera of a model the program knows; no file of one camera replaces that of another.", "quantifier": "all calibrations, models, transformations and topics", "why_tests_cant": "quantifies over all transformations and all names of topics", "anchors": ["aslam_offline_calibration/kalibr/python/exporters/kalibr_okvis_config", "aslam_offline_calibration/kalibr/python/exporters/kalibr_rovio_config", "aslam_offline_calibration/kalibr/python/exporters/kalibr_msf_config", "aslam_offline_calibration/kalibr/python/kalibr_common/ConfigReader.py"]}
{"id": "C158", "title": "The validator shows pairs of cameras rectified", "statement": "The validator shows every pair of cameras of which one names the other once; the transformation between the two cameras is the one of the chain. For two pinhole cameras that are apart the rectified views show a point in the same row and at columns that differ by focal length times baseline over depth, the right way up, and the errors of the pair are shown.", "quantifier": "all camera chains, overlaps, poses, intrinsics and points", "why_tests_cant": "quantifies over all poses, intrinsics and points", "anchors": ["aslam_offline_calibration/kalibr/python/kalibr_camera_validator"]}
{"id": "C159", "title": "Printed uncertainties and statistics belong to what they stand beside", "statement": "The uncertainty printed beside a baseline, distortion coefficient or projection parameter is the standard deviation of that parameter, for any number of cameras and any models. Printed mean and standard deviation are those of the reprojection errors of all corners that were seen.", "quantifier": "all numbers of cameras, camera models and sets of seen corners", "why_tests_cant": "quantifies over all numbers of cameras and all sizes of parameter blocks", "anchors": ["aslam_offline_calibration/kalibr/python/kalibr_camera_calibration/CameraCalibrator.py: recoverCovariance, printParameters, getReprojectionErrorStatistics"]}
{"id": "C160", "title": "Nothing is missing from the report", "statement": "The pages of text of the report, read one after the other, are the whole text, and every plot of the report has a figure of its own, for any number of cameras and sensors.", "quantifier": "all texts, numbers of cameras and sensors", "why_tests_cant": "quantifies over all numbers of cameras and sensors", "anchors": ["aslam_offline_calibration/kalibr/python/kalibr_imu_camera_calibration/IccUtil.py: generateReport", "aslam_offline_calibration/kalibr/python/kalibr_camera_calibration/CameraCalibrator.py: generateReport"]}
{"id": "C161", "title": "The command for inertial sensors takes sensors and models as given", "statement": "Sensors and models on the command line are paired in order, the first sensor is the reference and only it; a model that is not known or a wrong number of models ends the command with a message. The results are written to four different files in the current folder, and the results of different data are written to different files.", "quantifier": "all command lines and all paths of the data", "why_tests_cant": "quantifies over all strings on the command line", "anchors": ["aslam_offline_calibration/kalibr/python/kalibr_calibrate_imu_camera"]}
{"id": "C162", "title": "A calibration is drawn as it is", "statement": "The cameras of a chain and the inertial sensor are drawn at their poses relative to each other, and the outline of a camera is what it sees: the corners of the outline are seen at the corners of the image.", "quantifier": "all chains, poses, intrinsics, resolutions and scales", "why_tests_cant": "quantifies over all poses and intrinsics", "anchors": ["aslam_offline_calibration/kalibr/python/kalibr_visualize_calibration"]}
{"id": "C163", "title": "The measure of focus compares spectra", "statement": "The measure of focus is a number between minus the logarithm of the number of frequencies and zero, least exactly if all frequencies are equally strong, and does not change with the exposure, for every image.", "quantifier": "all spectra", "why_tests_cant": "quantifies over all images; inequality between real functions", "anchors": ["aslam_offline_calibration/kalibr/python/kalibr_camera_focus"]}
{"id": "C164", "title": "Matrices, images and keypoints come back from an archive as they were saved", "statement": "A matrix of any fixed or dynamic size, an image, a transformation, point or vector with its uncertainty, a keypoint or a landmark that is saved to a text, binary or XML archive is loaded with the same sizes and values, and what was saved after it is loaded too; a matrix of a wrong fixed size is refused.", "quantifier": "all matrices, images, points, keypoints, kinds of archives and contents after them", "why_tests_cant": "quantifies over all values and all sizes", "anchors": ["Schweizer-Messer/sm_eigen/include/sm_eigen/serialization.hpp", "Schweizer-Messer/sm_opencv/include/sm_opencv/serialization.hpp", "aslam_cv/aslam_cameras/include/aslam_cameras/Keypoint.hpp", "Schweizer-Messer/sm_kinematics/include/sm_kinematics/Transformation.hpp"]}
{"id": "C165", "title": "Cameras, targets and observations come back from an archive as they were saved", "statement": "A camera of any model with any distortion, shutter and mask, a calibration target of any kind, an observation of a target and a detector that are saved, as they are when they are sent to other processes, are loaded as the same objects, including what is computed from the parameters and not saved; masks of older versions are loaded too.", "quantifier": "all cameras, targets, observations and detectors", "why_tests_cant": "quantifies over all parameters and images", "anchors": ["aslam_cv/aslam_cameras/include/aslam_cameras/cameras/CameraGeometry.hpp", "aslam_cv/aslam_cameras/include/aslam_cameras/cameras/ImageMask.hpp", "aslam_cv/aslam_cameras/include/aslam_cameras/cameras/GridDetector.hpp", "aslam_cv/aslam_cameras/include/aslam_cameras/cameras/GridCalibrationTargetObservation.hpp", "aslam_cv/aslam_cameras_april/include/aslam_cameras_april/GridCalibrationTargetAprilgrid.hpp"]}
{"id": "C166", "title": "Property trees give back what was set last and nothing else", "statement": "A value that is set under a name in a namespace is the one that is got under that name, also by another namespace and name with the same path, after any number of other settings; other names keep their values; a name that does not exist or a value that cannot be read raises the documented exception and changes nothing; a child namespace is the same as the path with the name of the child; a constant tree is not changed by reading.", "quantifier": "all trees, namespaces, names, types of values and histories of settings", "why_tests_cant": "quantifies over all histories and all trees", "anchors": ["Schweizer-Messer/sm_property_tree/src/PropertyTree.cpp", "Schweizer-Messer/sm_property_tree/include/sm_property_tree/BoostPropertyTreeImplementation.hpp"]}
{"id": "C167", "title": "The routines for strings, identifiers and comparisons do what they are documented to do on every input", "statement": "Replacing of a character ends and replaces all occurrences but the ones skipped, from the front or from the back; padding reaches the length; every variable in a text is replaced once and the rest stays; identifiers are totally ordered, equal exactly if their bytes are, and read back from their text, and texts that are none are refused; for every positive precision exactly one of equal, greater and less holds.", "quantifier": "all strings, identifiers, numbers and precisions", "why_tests_cant": "quantifies over all strings and numbers, and termination", "anchors": ["Schweizer-Messer/sm_common/include/sm_common/string_routines.hpp", "Schweizer-Messer/sm_common/include/sm_common/hash_id.hpp", "Schweizer-Messer/sm_common/include/sm_common/numerical_comparisons.hpp"]}
{"id": "C168", "title": "Integers in portable archives are read back on every machine", "statement": "An integer of any type that is saved in a portable archive is loaded as the same integer, for either order of bytes in the file and on machines with either order, and an integer that does not fit in the type it is loaded into is refused.", "quantifier": "all integer types, values, orders of bytes and machines", "why_tests_cant": "quantifies over all values and over machines that are not at hand", "anchors": ["Schweizer-Messer/sm_boost/src/portable_binary_oarchive.cpp", "Schweizer-Messer/sm_boost/src/portable_binary_iarchive.cpp"]}
{"id": "C169", "title": "Generic matrix and quaternion expressions have the value and the Jacobians of the formula they stand for", "statement": "For every expression that is built from matrices, vectors and quaternions, the Jacobians that it collects, with and without a matrix for the chain rule, are the derivatives of its value with respect to the steps of its design variables; its value depends only on the design variables it names, and products, inverses, rotations and exponential maps of quaternions are those of the algebra, in all four modes.", "quantifier": "all expressions of any depth, all values of the design variables, all directions of steps, all modes and geometries", "why_tests_cant": "quantifies over all expression trees and over the reals", "anchors": ["aslam_optimizer/aslam_backend_expressions/include/aslam_backend_expressions/Differential.hpp", "aslam_optimizer/aslam_backend_expressions/include/aslam_backend_expressions/implementation/GenericMatrixExpression.hpp", "aslam_optimizer/aslam_backend_expressions/include/aslam_backend_expressions/implementation/QuaternionExpression.hpp", "aslam_optimizer/aslam_backend_expressions/include/aslam_backend_expressions/DesignVariableUnitQuaternion.hpp"]}
{"id": "C170", "title": "The transformation fitted to matched points is the best one", "statement": "For every set of matched points, the transformation of threePointSvd is a rigid one, never a reflection, and no other rigid transformation has a smaller sum of squared distances; the rotation of qMethod is a proper one and no other has a smaller weighted sum. If the points are exactly moved by a transformation and not all on one line, that transformation is returned.", "quantifier": "all numbers of points, all points, all weights, all rigid transformations", "why_tests_cant": "quantifies over the reals and over all competing transformations", "anchors": ["Schweizer-Messer/sm_kinematics/src/three_point_methods.cpp"]}
{"id": "C171", "title": "Transformations of points are rigid, and the inverse undoes them", "statement": "A transformation that is set from a translation and three angles turns points by roll, then pitch, then yaw, and then moves them; its inverse undoes it and is undone by it; inverting twice gives back the transformation, however the object was made and whatever was called on it before.", "quantifier": "all translations, angles, points and numbers of inversions", "why_tests_cant": "quantifies over the reals and over histories of calls", "anchors": ["aslam_incremental_calibration/aslam_incremental_calibration/include/aslam_incremental_calibration/geometry/Transformation3d.tpp", "aslam_incremental_calibration/aslam_incremental_calibration/include/aslam_incremental_calibration/geometry/Transformation2d.tpp"]}
{"id": "C172", "title": "The mutex excludes, and no thread that waits is forgotten", "statement": "For every schedule of any number of threads, with spurious wake-ups and timeouts: at most one thread holds the mutex, and once unless it is recursive; only the holder can unlock it; isLocked and getNumLocks tell the truth; a thread that waits while the mutex is free has been signalled or another has; Condition::wait returns with the mutex held as before.", "quantifier": "all schedules, numbers of threads, waiting times, choices of the thread that is woken", "why_tests_cant": "quantifies over all interleavings", "anchors": ["aslam_incremental_calibration/aslam_incremental_calibration/src/base/Mutex.cpp", "aslam_incremental_calibration/aslam_incremental_calibration/src/base/Condition.cpp"]}
{"id": "C173", "title": "An undistorted image is the one the ideal camera would have taken", "statement": "For every camera with a distortion, the map of the undistorter sends each pixel of the new image to the pixel at which the camera sees the same ray, to within a sixty-fourth of a pixel; the new camera matrix shows all of the grid of sample points if alpha is one and only points of the old image if it is zero; a camera without distortion is left as it is, the mask follows the image, and a factory name gives the undistorter it names.", "quantifier": "all cameras, distortions, scales, values of alpha, pixels and names", "why_tests_cant": "quantifies over the reals, over all cameras and over all pixels", "anchors": ["aslam_cv/aslam_imgproc/include/aslam_imgproc/implementation/aslamcv_helper.hpp", "aslam_cv/aslam_imgproc/include/aslam_imgproc/implementation/PinholeUndistorter.hpp", "aslam_cv/aslam_imgproc/include/aslam_imgproc/implementation/OmniUndistorter.hpp", "aslam_cv/aslam_imgproc/include/aslam_imgproc/implementation/NullUndistorter.hpp", "aslam_cv/aslam_imgproc/src/UndistorterBase.cpp"]}
{"id": "C174", "title": "The overlap of two cameras counts the pixels that both can see", "statement": "For every pair of cameras, the mask of each camera is set at exactly the pixels whose ray, at one of the sample distances, meets a point the other camera sees, and the ratio of each is the share of those pixels.", "quantifier": "all cameras, transformations, sample distances, scales and masks handed in", "why_tests_cant": "quantifies over the reals, over all cameras and over all pixels", "anchors": ["aslam_cv/aslam_imgproc/src/calculateOverlappingFov.cpp", "aslam_cv/aslam_imgproc/include/aslam_imgproc/implementation/calculateOverlappingFov.hpp"]}
{"id": "C175", "title": "A thread object runs once at a time, and an interrupt ends it", "statement": "For every schedule of callers and threads: an object is run by one thread at a time; process() is called at least once in a run, by one call at a time, and after an interrupt not again but for the first call; the run then ends, its final state tells whether it was interrupted, isBusy and exists are true from start to end, getNumCycles counts the calls; a caller that waits for the end is told that the run is over only when it is; and a failed start leaves the object as it was.", "quantifier": "all schedules, numbers of callers, cycle times, spurious wake-ups, failures to create a thread", "why_tests_cant": "quantifies over all interleavings", "anchors": ["aslam_incremental_calibration/aslam_incremental_calibration/src/base/Thread.cpp", "aslam_incremental_calibration/aslam_incremental_calibration/src/base/Threads.cpp", "aslam_incremental_calibration/aslam_incremental_calibration/src/base/Condition.cpp"]}
{"id": "C176", "title": "Time stamps convert to the system type, and timers measure the time between start and stop", "statement": "For every number of seconds the conversion to timespec gives a valid value that is at most a nanosecond earlier; stop returns when the period is over and adds the time since the start; a timer that is started and stopped again and again measures the sum, or the last time if it is reset.", "quantifier": "all times, periods and sequences of starts and stops", "why_tests_cant": "quantifies over the reals and over histories", "anchors": ["aslam_incremental_calibration/aslam_incremental_calibration/src/base/Timestamp.cpp", "aslam_incremental_calibration/aslam_incremental_calibration/src/base/Timer.cpp"]}
{"id": "C177", "title": "Every logging statement prints exactly when the level and the streams say so, and no call blocks for ever", "statement": "For every number of threads that set the level, enable and disable streams and reach logging statements, in every order of their accesses: whenever no thread is inside such a call, the switch of every statement reached so far is on exactly if its level reaches the threshold and its stream, if named, is enabled; and every call comes back.", "quantifier": "all numbers of threads, calls, statements, streams, levels and schedules", "why_tests_cant": "quantifies over all interleavings and histories", "anchors": ["Schweizer-Messer/sm_logging/src/LoggingGlobals.cpp", "Schweizer-Messer/sm_logging/include/sm_logging/logging/console.hpp", "Schweizer-Messer/sm_logging/include/sm_logging/logging/LogLocation.hpp"]}
{"id": "C178", "title": "Log messages arrive whole, once, in order, and in the format asked for", "statement": "For every message and history of messages the logger gets the whole text; every message a thread asks for reaches the logger once, in the order of its calls, one thread at a time, and a message printed by the logger itself is thrown out instead of blocking; a format is split without loss into texts and fields, every field is replaced by its value and the rest is printed as it is.", "quantifier": "all messages, histories, formats, events, numbers of threads and schedules", "why_tests_cant": "quantifies over all texts, histories and interleavings", "anchors": ["Schweizer-Messer/sm_logging/src/LoggingGlobals.cpp", "Schweizer-Messer/sm_logging/src/Formatter.cpp", "Schweizer-Messer/sm_logging/include/sm_logging/logging/Tokens.hpp", "Schweizer-Messer/sm_logging/src/Logger.cpp"]}
{"id": "C179", "title": "A depth camera maps points to keypoints, derivatives and back", "statement": "For every depth camera and point in front of it, the keypoint is where the line to the point, bent by the distortion, meets the image, with the inverse depth as third coordinate; the overload with derivatives gives the same keypoint and its derivatives; back projection gives the point back; homogeneous coordinates of the same point give the same keypoint; and parameters survive updates, setting and archives.", "quantifier": "all cameras, points, keypoints, scales and histories of changes", "why_tests_cant": "quantifies over the reals and over histories", "anchors": ["aslam_cv/aslam_cameras/include/aslam_cameras/cameras/DepthProjection.hpp", "aslam_cv/aslam_cameras/include/aslam_cameras/cameras/implementation/DepthProjection.hpp"]}
{"id": "C180", "title": "A linear solver that is used again solves the matrix it is given", "statement": "For every history of solutions, failures and announcements of a new pattern to the sparse Cholesky, CSparse and QR solvers, each solution factorizes exactly the matrix it is given, with a symbolic factorization of its pattern, and no buffer kept between calls is read or written outside what it holds; the ordering of the blocks becomes an ordering of all columns, none missing and none twice; and the structure of blocks has room for what was asked for and loses no memory.", "quantifier": "all histories of calls, matrices, sizes of blocks and orderings", "why_tests_cant": "quantifies over histories of calls with reused buffers", "anchors": ["aslam_optimizer/aslam_sparse_block_matrix/include/aslam_sparse_block_matrix/linear_solver_cholmod.h", "aslam_optimizer/aslam_sparse_block_matrix/include/aslam_sparse_block_matrix/linear_solver_csparse.h", "aslam_optimizer/aslam_sparse_block_matrix/include/aslam_sparse_block_matrix/linear_solver_spqr.h", "aslam_optimizer/aslam_sparse_block_matrix/src/matrix_structure.cpp: MatrixStructure::alloc, free, write"]}
{"id": "C181", "title": "Rolling shutter observations are weighted by the covariance of their error", "statement": "For every keypoint with a positive definite covariance, every motion of the image that does not keep up with the shutter and whatever was evaluated before, the error is the keypoint less the projection and its weight is the inverse of the covariance of the keypoint mapped through the derivative of the error by the measured keypoint, which moves the time of the observation by the line delay; without a line delay or at rest it is the plain reprojection error. The matrix square root used for it, times its transpose, is the matrix.", "quantifier": "all keypoints, covariances, projections, motions, line delays and histories of evaluations", "why_tests_cant": "quantifies over all real covariances and all differentiable motions", "anchors": ["aslam_cv/aslam_cv_error_terms/include/aslam_cv_error_terms/implementation/CovarianceReprojectionError.hpp: covarianceMap, evaluateErrorImplementation", "Schweizer-Messer/sm_eigen/include/sm_eigen/matrix_sqrt.hpp: computeMatrixSqrt", "aslam_optimizer/aslam_backend/include/aslam_backend/backend/implementation/ErrorTerm.hpp: setSqrtInvR", "aslam_offline_calibration/kalibr/python/kalibr_rs_camera_calibration/RsCalibrator.py"]}
{"id": "C182", "title": "The target that is printed is the one the detector looks for", "statement": "For every size of board, size and spacing of tags and identifiers to skip for which the generator prints a page, every tag on it and every view of the page, whichever corner the quadrilateral found in the image begins with: the detector reads the identifier that the target has at this place, and stores the corners of the tag under the indices of the points of the target which lie, in centimetres, where the corners were printed. The colours of a printed checkerboard alternate around exactly the points of the target. A page is printed for every board the family has enough codes for.", "quantifier": "all boards, tags, skipped identifiers, views of the page and orders of the corners", "why_tests_cant": "quantifies over all boards and all real sizes, spacings and views", "anchors": ["aslam_offline_calibration/kalibr/python/kalibr_create_target_pdf: generateAprilTag, generateAprilBoard, generateCheckerboard", "aslam_offline_calibration/aslam_apriltag2/src/TagDetector.cc: TagDetector::extractTags (step eight)", "aslam_offline_calibration/aslam_apriltag2/src/Quad.cc: Quad::interpolate01", "aslam_cv/aslam_cameras_april/src/GridCalibrationTargetAprilgrid.cpp: createGridPoints, computeObservation", "aslam_cv/aslam_cameras/src/GridCalibrationTargetCheckerboard.cpp: createGridPoints"]}
{"id": "C183", "title": "Random numbers repeat after a seed and stay within their bounds", "statement": "After seeding with the same number, the same calls return the same values, whatever was drawn before and however the draws are mixed. Uniform numbers are at least zero and less than one; numbers between bounds include the lower and exclude the upper one; integers between bounds are among the integers from the lower to below the upper one, and each of them can be drawn. Different seeds are different.", "quantifier": "all engines of 32 bits, histories of calls, seeds and bounds", "why_tests_cant": "quantifies over histories of draws before the seed and over all words of the engine", "anchors": ["Schweizer-Messer/sm_random/src/random.cpp: Random::seed, normal, uniform, randLU, randLUi"]}
{"id": "C184", "title": "The simple optimization problem deletes what it owns exactly once", "statement": "After any program that adds design variables and error terms by pointer, owned or not, and by shared pointer, drops shared pointers and clears the problem: nothing is deleted twice, nothing that the problem does not own is deleted by it, nothing still owned is deleted, and clearing or destroying the problem deletes once each object it owns and the caller does not, error terms before design variables. No design variable is in the problem twice; adding it again raises and changes nothing. An adapter undoes the last update on revert.", "quantifier": "all programs that use the problem, its objects and shared pointers; all histories of edits of an adapter", "why_tests_cant": "quantifies over histories of calls and shared ownership", "anchors": ["aslam_optimizer/aslam_backend/src/SimpleOptimizationProblem.cpp", "aslam_optimizer/aslam_backend/include/aslam_backend/backend/implementation/DesignVariableAdapter.hpp"]}
{"id": "C185", "title": "The dense solver solves the same system as the sparse ones", "statement": "For every symmetric block matrix without kernel, every division into blocks, and whether all blocks or only those on and above the diagonal are stored, the dense solver returns the solution of the symmetric system; what is stored below the diagonal does not matter. It reports failure if there is no solution.", "quantifier": "all block matrices, layouts and right-hand sides", "why_tests_cant": "quantifies over all block structures and real matrices", "anchors": ["aslam_optimizer/aslam_sparse_block_matrix/include/aslam_sparse_block_matrix/linear_solver_dense.h: LinearSolverDense::solve"]}
{"id": "C186", "title": "Eliminating blocks does not change the solution", "statement": "For every block matrix with any pattern of stored blocks, every right-hand side and every damping, if the eliminated blocks are symmetric, regular with the damping and not coupled with each other: solving the reduced system that is formed, in whatever the output held before, and substituting back gives exactly the solutions of the full damped symmetric system.", "quantifier": "all numbers and sizes of blocks, patterns, matrices, right-hand sides, dampings and earlier contents of the outputs", "why_tests_cant": "quantifies over all block structures and all real matrices", "anchors": ["aslam_optimizer/aslam_backend/src/sparse_matrix_functions.cpp: applySchurComplement, buildDsi", "aslam_optimizer/aslam_sparse_block_matrix/include/aslam_sparse_block_matrix/implementation/sparse_block_matrix.hpp: SparseBlockMatrix::sliceInto", "aslam_optimizer/aslam_backend/src/Optimizer.cpp: applyStateUpdate"]}
{"id": "C187", "title": "The first optimizer keeps a step exactly if it lowers the objective", "statement": "In Levenberg-Marquardt mode, whatever the problem, every step is computed at the current state with a positive damping; it is kept exactly if it lowers the objective, and otherwise the state stays and the damping at least doubles. The result is reached by as many improvements as there are iterations that did not fail, and the reported final objective is the one of the result. The optimizer stops at the limit of the iterations or when the last change of the state or of the objective is small, and not before. The active variables get consecutive indices, those that are eliminated last, and it raises if all of them are. The initial damping, if estimated, is proportional to the largest entry of the diagonal.", "quantifier": "all problems, solvers, options, starts and numbers of iterations; all lists of variables", "why_tests_cant": "quantifies over all objectives, solvers and histories of iterations", "anchors": ["aslam_optimizer/aslam_backend/src/Optimizer.cpp: optimize, initialize, setInitialLambda, getLmRho, revertLastStateUpdate", "aslam_optimizer/aslam_backend/include/aslam_backend/backend/OptimizerOptions.hpp"]}
{"id": "C188", "title": "The dog leg of the first optimizer stays in its region and ends", "statement": "Whatever the problem without eliminated variables, every step is computed from the system of the current state and is at most as long as the radius of the region. It is kept exactly if it lowers the objective; otherwise the state stays and the radius at least halves. With a positive limit for the change of the state the optimizer ends. The result is reached by improvements, and the reported final objective is the one of the result. The steepest descent step is the best one along the gradient.", "quantifier": "all problems, systems, starts, options and numbers of iterations", "why_tests_cant": "quantifies over all objectives, systems and histories of steps, in vector spaces of any dimension", "anchors": ["aslam_optimizer/aslam_backend/src/Optimizer.cpp: optimizeDogLeg"]}
{"id": "C189", "title": "Numerical Jacobians are differences at the given point", "statement": "For every function and point, every entry of an estimated Jacobian is a difference quotient along one coordinate at the given point. It is exact for functions that are quadratic along the coordinate, and with a third derivative of at most M the error is at most M / 6 times the square of the step, which is eps times the larger of one and the size of the coordinate. Estimating leaves the point, the parameters of the camera and the variables and the error of an error term as they were.", "quantifier": "all functions, dimensions, points and steps", "why_tests_cant": "quantifies over all real functions and all dimensions", "anchors": ["Schweizer-Messer/sm_eigen/include/sm_eigen/NumericalDiff.hpp: NumericalDiff::estimateJacobian", "aslam_cv/aslam_cameras/include/aslam_cameras/cameras/FiniteDifferences.hpp: ASLAM_CAMERAS_ESTIMATE_JACOBIAN, ASLAM_CAMERAS_ESTIMATE_INTRINSIC_JACOBIAN, ASLAM_CAMERAS_ESTIMATE_DISTORTION_JACOBIAN", "aslam_optimizer/aslam_backend/src/ErrorTerm.cpp: ErrorTerm::evaluateJacobiansFiniteDifference"]}
{"id": "C190", "title": "The type of a camera in a configuration creates this camera", "statement": "For every string: it creates a camera exactly if it is the name composed of mask, distortion, projection and shutter of a supported camera, and then it creates this camera; every other string raises. Different supported cameras have different names.", "quantifier": "all strings and all combinations of projection, distortion, shutter and mask", "why_tests_cant": "quantifies over all strings", "anchors": ["aslam_cv/aslam_cameras/src/CameraGeometryBase.cpp: CameraGeometryBase::create"]}
{"id": "C191", "title": "The file of a sparse matrix holds the matrix", "statement": "Writing a sparse matrix in compressed columns to a text file produces a file whose header states the size of the matrix and the number of the lines, and whose lines, read as row, column (both counted from one) and value, add up to the matrix; if only the upper half is stored and the symmetric matrix is asked for, they add up to that half and its mirror image, with the diagonal written once. If every place is stored once, every place is on one line, and the lines are in the order of the columns and then of the rows. The name in the header is the one of the file up to its last dot.", "quantifier": "every matrix in compressed columns of any size, every result the standard sort may leave, symmetric or not, and every file name", "why_tests_cant": "A test compares the files of some matrices; an entry of the diagonal written twice or a sort that mixes up rows and columns shows only on the matrices that have it.", "anchors": ["aslam_optimizer/aslam_sparse_block_matrix/include/aslam_sparse_block_matrix/implementation/sparse_helper.h: writeCCSMatrix", "aslam_optimizer/aslam_sparse_block_matrix/include/aslam_sparse_block_matrix/sparse_helper.h: TripletEntry, TripletColSort"]}
{"id": "C192", "title": "Identifiers from a counter are different and set", "statement": "A counter that starts at zero gives identifiers that are all different, increasing and set, up to 2^64 - 1 of them; the next one is not set, and then it starts again at zero. The six comparisons are those of one linear order, in which an identifier that is not set comes last. The postincrement gives the value before, the preincrement the one after, and both leave the same object. An identifier is not set exactly if it was made by the default constructor, cleared, or holds the largest number.", "quantifier": "all identifiers and all numbers of increments", "why_tests_cant": "quantifies over all numbers of 64 bits and all histories of a counter", "anchors": ["Schweizer-Messer/sm_common/include/sm_common/Id.hpp: sm::Id, SM_DEFINE_ID"]}
{"id": "C193", "title": "A vector variable goes one step back", "statement": "After any history of a vector design variable, one or more reverts bring back exactly the value before the last change, be it an update, a value that was set or parameters; further reverts do nothing more. An update adds the vector, and parameters of another shape raise and leave the variable as it was.", "quantifier": "all vectors, sizes and histories of calls", "why_tests_cant": "quantifies over all histories of updates, sets and reverts", "anchors": ["aslam_incremental_calibration/aslam_incremental_calibration/include/aslam_incremental_calibration/data-structures/VectorDesignVariable.tpp: VectorDesignVariable"]}
{"id": "C194", "title": "The solutions of a quadratic equation are its solutions", "statement": "For all coefficients with a quadratic term, the two results of the solver of quadratic equations are exactly the real solutions, with the sum and the product the coefficients demand, and it raises exactly if there is no real solution. Without a quadratic term the second result is the solution of the linear equation. The sign of a number times its size is the number.", "quantifier": "all real coefficients and numbers", "why_tests_cant": "quantifies over all real coefficients", "anchors": ["Schweizer-Messer/sm_common/include/sm_common/maths.hpp: solveQuadratic, sgn"]}
{"id": "C195", "title": "The covariance recovered from a triangular factor is the inverse", "statement": "For every upper triangular matrix R without a zero on its diagonal and every range of columns, the covariance block recovered from R is the block of this range of the inverse of the product of the transposed of R and R. A range that is not within the matrix raises. The sum of the logarithms of the diagonal is the logarithm of the size of its product, without tiny elements, so that for the whole matrix twice the sum is the logarithm of the determinant of the product of the transposed of R and R.", "quantifier": "all sizes, all upper triangular matrices and all ranges of columns", "why_tests_cant": "quantifies over all real triangular matrices of any size; a wrong bound in one of the nested loops shows only for sizes and entries no test has", "anchors": ["aslam_incremental_calibration/aslam_incremental_calibration/include/aslam_incremental_calibration/algorithms/matrixOperations.tpp: computeCovariance, computeSumLogDiagR, checkColumnIndices"]}
{"id": "C196", "title": "A singleton is one object", "statement": "At any time there is at most one object of a singleton class. Asking for the instance gives this object, makes it if there is none, and gives the same one until it is destroyed; making another one raises and leaves it as it is. Whether it exists is reported correctly. This also holds for any number of threads that ask for the instance, under every schedule.", "quantifier": "all programs that ask for, make and destroy the object; all numbers of threads and all schedules", "why_tests_cant": "quantifies over all programs and all schedules", "anchors": ["aslam_incremental_calibration/aslam_incremental_calibration/include/aslam_incremental_calibration/base/Singleton.tpp: Singleton"]}
{"id": "C197", "title": "A quadrilateral is projected with the homography of its own corners", "statement": "After any history of calls the homography of a quadrilateral is that of the corners given last (or the matrix written into it since): keeping it between calls cannot be seen. With any optical centre it takes each corner of the tag to its corner in the image, and a detection whose tag was read turned by k quarter turns takes corner j of the tag to corner j + k of the quadrilateral and reports the direction of the lower edge as its orientation. Corners for which there is no homography are rejected.", "quantifier": "all histories of calls, all corners, optical centres and numbers of turns, all results of OpenCV", "why_tests_cant": "quantifies over all histories and all quadrilaterals", "anchors": ["aslam_offline_calibration/aslam_apriltag2/src/Homography33.cc: setCorrespondences, compute, getH, project", "aslam_offline_calibration/aslam_apriltag2/src/TagDetection.cc: interpolate, getXYOrientation", "aslam_offline_calibration/aslam_apriltag2/src/TagDetector.cc: extractTags"]}
{"id": "C198", "title": "A matrix of unknowns changes only where its pattern allows", "statement": "A matrix design variable has as many unknowns as its pattern has ones. An update of that size adds its elements, in order, to these entries going down the columns, changes no other entry and reads nothing beyond the update. The Jacobian it gives is exact: whatever is linear in the entries changes by the Jacobian times the update. Reverting undoes the last update or assignment.", "quantifier": "all matrices, patterns, updates and derivatives", "why_tests_cant": "quantifies over all matrices, patterns and updates", "anchors": ["aslam_optimizer/aslam_backend_expressions/src/MatrixTransformation.cpp: MatrixTransformation, updateImplementation, revertUpdateImplementation, evaluateJacobiansImplementation"]}
{"id": "C199", "title": "A copy of a landmark is independent of the original", "statement": "An assigned landmark looks like the one it was copied from, and nothing done to one of them afterwards is seen in the other, descriptor included. Swapping exchanges two landmarks, setting a part leaves the other parts, and a landmark made from a keypoint has the point (transformed if asked), descriptor and number of that keypoint and the frame given. A keypoint without a point is rejected and the landmark is left as it was.", "quantifier": "all landmarks, keypoints, transformations and programs", "why_tests_cant": "quantifies over all programs after the copy", "anchors": ["aslam_cv/aslam_cameras/src/Landmark.cpp: Landmark, operator=, swap, fromKeypoint, fromTransformedKeypoint"]}
{"id": "C200", "title": "All kinds of matrices take over the same entries of a dense matrix", "statement": "Whether a dense, a compressed column or a block matrix is filled from a dense matrix with a tolerance, it afterwards holds exactly the entries whose absolute value is above the tolerance, and zeros elsewhere, whatever it held before. A block matrix rejects a matrix of another size and is left as it was.", "quantifier": "all matrices, sizes, block layouts, earlier contents and tolerances", "why_tests_cant": "quantifies over all matrices, layouts and tolerances", "anchors": ["aslam_optimizer/aslam_backend/src/DenseMatrix.cpp: fromDenseTolerance", "aslam_optimizer/aslam_backend/src/SparseBlockMatrixWrapper.cpp: fromDenseTolerance", "aslam_optimizer/aslam_backend/include/aslam_backend/backend/implementation/CompressedColumnMatrix.hpp: fromDenseTolerance"]}
