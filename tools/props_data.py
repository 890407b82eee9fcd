# ---------------------------------------------------------------- aslam_time
T='aslam_cv/aslam_time/'
P('C01','Adding a duration to a time is exact and normalised',
  'For a time t and a duration d, t + d either raises (when the exact sum of nanoseconds is negative or its whole seconds exceed the largest signed 32-bit value) or returns a time whose nanosecond field is below one second and whose total nanoseconds are exactly the sum of the totals of t and d.',
  'every stored time (any 32-bit seconds / nanoseconds) and every stored duration',
  'the carry/borrow loops and the range check interact at boundaries of 2^31 and 10^9; tests sample a few instants of a 2^128-sized input space',
  [T+'include/aslam_time/implementation/Time.hpp: TimeBase::operator+, operator-',T+'src/time.cpp: normalizeSecNSecUnsigned'])
P('C02','Time order is the order of instants',
  'For normalised times, the comparison operators agree with the order of the represented nanosecond counts: exactly one of <, ==, > holds, <= and >= are the unions, and the order is preserved by adding the same duration to both sides whenever neither addition raises.',
  'every pair of normalised times and every duration','universally quantified over pairs of 64-bit values',
  [T+'include/aslam_time/implementation/Time.hpp: operator==,<,>,<=,>='])
P('C03','Durations have one representation per value',
  'After any duration construction or arithmetic, the nanosecond field is in [0, 10^9), so equal amounts of time always compare equal.',
  'every pair of 32-bit seconds/nanoseconds handed to the constructor, and every sum/difference/negation of durations',
  'the failure is a single boundary value (exactly 10^9 ns) among 2^32',
  [T+'src/duration.cpp: normalizeSecNSecSigned',T+'include/aslam_time/implementation/Duration.hpp'])
P('C04','Times and durations survive the trip through nanoseconds',
  'Reading a time or duration back from its 64-bit nanosecond count returns the same instant or interval; the difference of two times added back to the earlier time gives the later one.',
  'every normalised time/duration in the representable range','quantifies over 2^63 counts',
  [T+'include/aslam_time/implementation/Time.hpp: fromNSec, operator-(TimeBase)',T+'include/aslam_time/Time.hpp: toNSec',T+'include/aslam_time/implementation/Duration.hpp: fromNSec'])
# ---------------------------------------------------------------- sm_boost archives
B='Schweizer-Messer/sm_boost/'
P('C05','Portable archive integers round-trip',
  'Any signed integer written by the portable binary archive is read back unchanged by the portable input archive into any integer type wide enough for it, on either byte order and for either stream byte order.',
  'every 64-bit value, both machine endiannesses, both stream flags','2^64 values x configurations; the wrong branch only shows on some build configurations',
  [B+'src/portable_binary_oarchive.cpp: save_impl',B+'src/portable_binary_iarchive.cpp: load_impl'])
P('C06','Portable archives are self-delimiting and never mis-size',
  'A sequence of integers written one after another is read back as exactly the same sequence with nothing left over; reading into a type narrower than the stored width raises instead of truncating.',
  'every finite sequence of 64-bit integers and every target width','unbounded sequences; framing errors only show in some concatenations',
  [B+'src/portable_binary_iarchive.cpp: load_impl',B+'src/portable_binary_oarchive.cpp: save_impl'])
# ---------------------------------------------------------------- sm_boost job queue
P('C07','Job queue runs every queued job exactly once and in order',
  'While the queue is not stopped, jobs are started in the order they were scheduled, no job is started twice and no scheduled job is lost; with one worker the completion order equals the scheduling order.',
  'every interleaving of producers, workers and waiters, any number of workers','schedules are unbounded and non-deterministic',
  [B+'src/JobQueue.cpp: exec_loop, add_job/scheduleFuture',B+'include/sm_boost/JobQueue.hpp'])
P('C08','Waiting for an empty queue means all work is done',
  'When waitForEmptyQueue returns, every job scheduled before the call has finished executing (unless the workers were told to die).',
  'every interleaving and every number of workers','race conditions: the last job may be dequeued but still running',
  [B+'src/JobQueue.cpp: waitForEmptyQueue, exec_loop, killWorkers'])
# ---------------------------------------------------------------- sm_matrix_archive
M='Schweizer-Messer/sm_matrix_archive/'
P('C09','Matrix archive files round-trip',
  'Saving an archive to a stream and loading that stream into an empty archive gives back exactly the same named matrices (same shape, bit-identical entries) and the same named strings, in particular for every legal name length.',
  'every archive content: any number of matrices/strings, any shapes below the 32-bit size fields, any legal names','unbounded contents; padding/trim of names and block framing fail only for particular bytes',
  [M+'src/MatrixArchive.cpp: save, load, writeMatrixBlock, writeStringBlock, readBlock, writeName, readName'])
P('C10','Matrix archive lookups return the last value stored',
  'After any sequence of set/clear operations, asking for a name returns the value of the most recent set of that name, with the kind (matrix or string) of that set, or raises if the name was never set or was cleared.',
  'every finite history of setMatrix/setScalar/setVector/setString/clear calls','histories are unbounded and the failing ones mix kinds under one name',
  [M+'src/MatrixArchive.cpp: clear, setScalar, setString, getString',M+'include/sm_matrix_archive/MatrixArchive.hpp: setMatrix, setVector'])
P('C11','Matrix archive accepts exactly the legal names',
  'A name is accepted iff it has 1 to 32 characters, starts with a letter and continues with letters, digits or underscores; anything else raises and stores nothing.',
  'every string','all strings of every length',[M+'src/MatrixArchive.cpp: validateName, isNameValid'])
P('C12','Archive sizes count the stored entries',
  'sizeMatrices, sizeStrings and size return the number of stored matrices, strings and their sum.',
  'every archive content','the wrong count coincides with the right one whenever there are as many strings as matrices',
  [M+'src/MatrixArchive.cpp: sizeMatrices, sizeStrings, size'])
# ---------------------------------------------------------------- apriltag
A='aslam_offline_calibration/aslam_apriltag2/'
P('C13','Union-find merges exactly the connected pixels',
  'After any sequence of connect operations two elements have the same representative iff they are linked by a chain of connected pairs, and the reported set size of an element is the number of elements linked to it; lookups (which compress paths) never change this.',
  'every element count and every finite sequence of connect/lookup calls','the relation is the transitive closure of an unbounded sequence',
  [A+'src/UnionFindSimple.cc: getRepresentative, connectNodes, init',A+'include/apriltags/UnionFindSimple.h: getSetSize'])
P('C14','Tag decoding finds the nearest code word over four rotations',
  'Decoding an observed bit pattern reports the id, rotation and Hamming distance of a code/rotation pair with the smallest distance among all codes and all four rotations (the first one in scan order), and marks it good iff that distance is within the error-recovery bound.',
  'every tag family and every observed pattern','2^36 patterns times family size',
  [A+'src/TagFamily.cc: decode, hammingDistance, popCount, rotate90'])
P('C15','Tag decoding corrects bounded bit errors',
  'If the code words of a family, in all rotations, are pairwise more than 2e bits apart, then a code word seen in any rotation with at most e flipped bits decodes to that id and rotation, whatever bits were flipped.',
  'every family with that minimum distance, every id, rotation and error pattern of weight <= e','combinatorially many error patterns',
  [A+'src/TagFamily.cc: decode, rotate90'])
P('C16','Four quarter turns of a tag code are the identity',
  'Rotating a d*d-bit code four times by 90 degrees gives the same code, and each rotation is a permutation of its bits (so it preserves Hamming distances).',
  'every code of every dimension whose bits fit the word','2^36 codes',[A+'src/TagFamily.cc: rotate90'])
# ---------------------------------------------------------------- timing
S='Schweizer-Messer/sm_timing/'
P('C17','Clock correction keeps a supporting lower hull',
  'After any accepted sequence of (remote, local) samples, the stored points are a subsequence of the samples with strictly increasing remote time and strictly increasing slopes, and no sample lies strictly below the polyline through them.',
  'every finite sequence of sample pairs with increasing remote time','hull correctness is an unbounded-history invariant',
  [S+'include/sm_timing/implementation/TimestampCorrector.hpp: correctTimestamp, isAboveLine, isAboveTopLine'])
P('C18','Corrected stamps never run ahead of reception',
  'The corrected local time returned for a sample never exceeds the local time at which that sample was received.',
  'every finite sequence of samples','depends on the hull invariant for the whole history',
  [S+'include/sm_timing/implementation/TimestampCorrector.hpp: correctTimestamp, getLocalTime'])
P('C19','Clock correction never reads outside its hull',
  'Every query (getLocalTime, getSlope, getOffset) on a corrector with at least two hull points reads two existing hull points.',
  'every finite sequence of samples and queries','needs a history in which the hull shrinks between updates',
  [S+'include/sm_timing/implementation/TimestampCorrector.hpp: getLocalTime, getSlope, getOffset'])
P('C20','Time-going-backwards is rejected without side effects',
  'A sample whose remote time is not later than the previous one raises and leaves every later correction unchanged.',
  'every history and every offending sample','universally quantified histories',
  [S+'include/sm_timing/implementation/TimestampCorrector.hpp: correctTimestamp'])
P('C21','Timers are accounted to the right tag',
  'Tags get distinct dense handles that never change; each completed start/stop pair adds exactly one sample to its own tag and to no other; starting a running timer or stopping a stopped one raises and records nothing.',
  'every finite history of timer operations over any tags','unbounded histories',
  [S+'src/Timer.cpp: Timing::getHandle, getTag, Timer::start, stop, addTime, getNumSamples'])
# ---------------------------------------------------------------- backend
K='aslam_optimizer/aslam_backend/'
P('C22','Optimisation never ends with a larger cost than it started',
  'With revert-on-failure policies, the cost reported at the end of optimize() is not larger than the initial cost, every intermediate accepted cost is non-increasing, and the design variables left behind are the ones whose cost is reported.',
  'every cost landscape, every sequence of proposed steps and solver failures','the trajectory depends on arbitrary cost values and solver outcomes',
  [K+'src/Optimizer2.cpp: optimize, applyStateUpdate, revertLastStateUpdate'])
P('C23','Optimisation stops within its iteration budget',
  'optimize() performs at most maxIterations accepted iterations and at most maxIterations failed ones, and stops on its own.',
  'every problem and option set','termination over arbitrary numeric behaviour',[K+'src/Optimizer2.cpp: optimize'])
P('C24','Block and column indices tile the state vector',
  'After initialisation the active design variables have block indices 0..n-1 in order and consecutive column ranges that tile the state vector exactly; inactive ones get -1; error-term row ranges tile the error vector.',
  'every list of design variables with any dimensions and activity flags','unbounded lists',
  [K+'src/Optimizer2.cpp: initialize',K+'src/LinearSystemSolver.cpp: initMatrixStructure'])
P('C25','State updates are undone exactly',
  'Reverting the last state update restores every active design variable to its value before the update and touches no inactive one; the update reads each variable\'s own segment of the step, scaled.',
  'every problem and step','unbounded numbers of variables',[K+'src/Optimizer2.cpp: applyStateUpdate, revertLastStateUpdate'])
P('C26','Adding Jacobian containers adds the maps',
  'Adding containers (and applying a chain-rule matrix) represents the sum (and product) of the linear maps: for every design variable the stored block is the sum of the contributions and no variable is lost or duplicated; the blocks stay ordered by block index.',
  'every pair of containers with any overlap of design variables','merge code with many overlap patterns',
  [K+'src/JacobianContainer.cpp: add, applyChainRule'])
P('C27','Compressed column matrix stays well formed and means the dense matrix',
  'Any sequence of Jacobian appends, diagonal pushes/pops and rewrites keeps the compressed form valid (monotone column pointers, in-range rows) and its dense expansion is the intended matrix; element access and left/right products agree with the dense expansion.',
  'every sequence of operations and every size','structural invariant over unbounded histories',
  [K+'include/aslam_backend/backend/implementation/CompressedColumnMatrix.hpp'])
P('C28','Pushing and popping a diagonal block leaves the matrix unchanged',
  'popDiagonalBlock after pushDiagonalBlock (with any number of updates in between) restores the matrix exactly; pushing twice or popping without a push raises.',
  'every matrix, every diagonal sequence','state machine over unbounded histories',
  [K+'include/aslam_backend/backend/implementation/CompressedColumnMatrix.hpp: pushDiagonalBlock, popDiagonalBlock, updateDiagonalBlock'])
P('C29','Threaded error evaluation covers every error term once',
  'Splitting n error terms over k threads evaluates each term exactly once, in contiguous ranges, for every n and k.',
  'every n and k','off-by-one in the split shows only for particular remainders',
  [K+'src/LinearSystemSolver.cpp: setupThreadedJob, evaluateErrors'])
P('C30','Optimisation problem bookkeeping is consistent',
  'After any sequence of add/remove operations the problem contains exactly the live design variables and error terms, removal of a design variable removes exactly the error terms that depend on it, and the errors listed for a variable are exactly the live terms mentioning it.',
  'every history of operations','unbounded histories',[K+'src/OptimizationProblem.cpp'])
P('C31','Robust weights are valid',
  'Every robust-estimator weight is in (0,1], equals 1 at zero error and never increases with the error.',
  'every error value and every positive parameter','continuum of inputs',[K+'src/MEstimatorPolicies.cpp'])
P('C32','Trust-region steps stay in the trust region',
  'The dog-leg step returned never has a norm larger than the current trust-region radius, and the Levenberg-Marquardt damping stays positive.',
  'every gradient, Gauss-Newton step and radius','continuum of inputs',
  [K+'src/DogLegTrustRegionPolicy.cpp',K+'src/LevenbergMarquardtTrustRegionPolicy.cpp'])
# ---------------------------------------------------------------- sparse block matrix
Q='aslam_optimizer/aslam_sparse_block_matrix/include/aslam_sparse_block_matrix/'
P('C33','Sparse block matrices denote dense matrices',
  'Element access, dense expansion, transpose, addition, product with a matrix or a vector, scaling and slicing of a sparse block matrix all agree with the same operation on the dense matrix it denotes.',
  'every block layout, sparsity pattern and contents','unbounded layouts',
  [Q+'implementation/sparse_block_matrix.hpp: operator(), toDenseInto, transpose, add, multiply, rightMultiply, scale, slice'])
P('C34','Compressed-column export lists exactly the stored entries',
  'fillCCS writes column pointers that are monotone and end at the returned count, row indices strictly increasing in each column, and values equal to the dense entries; everything not listed is zero.',
  'every block layout and contents','unbounded layouts',[Q+'implementation/sparse_block_matrix.hpp: fillCCS, fillBlockStructure'])
# ---------------------------------------------------------------- incremental calibration
I='aslam_incremental_calibration/aslam_incremental_calibration/'
P('C35','Batch problems index their variables consistently',
  'In a single batch problem the group ordering is a permutation of the groups in use, a flat index addresses every design variable exactly once in group order, and the reported sizes are the sums of the group sizes.',
  'every history of additions and permutations','unbounded histories',[I+'src/core/OptimizationProblem.cpp'])
P('C36','Merged problem counts references of shared variables',
  'After any sequence of successful add/remove of batches, the merged problem lists each design variable of the live batches exactly once, forgets a variable exactly when its last batch is removed, and flat error indices enumerate all error terms of the live batches.',
  'every history of batch additions and removals','unbounded histories',
  [I+'src/core/IncrementalOptimizationProblem.cpp: add, remove, getErrorIdx, getGroupId'])
P('C37','A failed batch addition leaves the merged problem unchanged',
  'If adding a batch raises, the merged problem is exactly as before.',
  'every problem state and every rejected batch','exception paths after partial mutation',
  [I+'src/core/IncrementalOptimizationProblem.cpp: add'])
P('C38','A rejected batch leaves the estimator unchanged',
  'When the estimator does not keep a batch, the set of batches, every design-variable value and the stored marginal estimates are the same as before the call; when it keeps it, the batch is appended.',
  'every estimator history and every batch','depends on whole histories and solver outcomes',
  [I+'src/core/IncrementalEstimator.cpp: addBatch, removeBatch, reoptimize'])
P('C39','Marginalised group is ordered last',
  'Before solving, the marginalised group is the last group in the ordering and no group is lost or duplicated.',
  'every group ordering','all permutations',[I+'src/core/IncrementalEstimator.cpp: orderMarginalizedDesignVariables'])
P('C40','Grid cell indexing is a bijection',
  'Coordinates in range map to a valid cell containing them; the linear index is a bijection between valid cells and 0..n-1; stepping from the first index visits every cell exactly once and then stops.',
  'every dimension count, cell counts and coordinates','unbounded dimensions',
  [I+'include/aslam_incremental_calibration/data-structures/Grid.tpp'])
# ---------------------------------------------------------------- bsplines
Z='aslam_nonparametric_estimation/aslam_bsplines/src/BSpline.cpp'
P('C41','Spline basis is a partition of unity',
  'At every time in the valid interval the local basis weights sum to 1, so a spline with equal coefficients is constant; for nondecreasing knots the weights are also non-negative (convex-hull property).',
  'every order, knot sequence and time','continuum of times and unbounded orders',[Z+': M, computeU, evalD, getLocalBiVector'])
P('C42','Spline evaluation is the B-spline of the knots and coefficients',
  'eval(t) equals the sum over coefficients of the Cox-de Boor basis functions of the knot sequence at t.',
  'every order, nondecreasing knot sequence and time in the valid interval','continuum of inputs, recursion over the order',[Z+': evalD, M, d_0, d_1'])
P('C43','Every time in the valid range hits an existing segment',
  'For every t between t_min and t_max the located segment index is inside the range of segments, its knots bracket t, and the coefficient window read lies inside the coefficient matrix; times outside raise.',
  'every knot sequence accepted and every time','binary search corner cases with repeated knots and the end point',[Z+': computeTIndex, computeUAndTIndex, localCoefficientVectorIndices'])
P('C44','Knot sequences are validated',
  'setKnotsAndCoefficients accepts only nondecreasing knot sequences with the matching number of coefficients.',
  'every knot sequence and every prior state','the check looks at the wrong vector and only shows on some prior states',[Z+': setKnotsAndCoefficients, verifyKnotSequence'])
P('C45','Dropping the oldest segment does not change the rest of the curve',
  'After removeCurveSegment the curve evaluated on the remaining valid interval is unchanged.',
  'every spline and every time in the remaining interval','needs non-uniform knots',[Z+': removeCurveSegment, evalD'])
P('C46','Spline derivative and integral are the calculus ones',
  'evalD(t,n) is the n-th derivative of the curve inside a segment, and evalIntegral(a,b) is the exact integral (antisymmetric and additive over adjacent intervals).',
  'every order, knots, coefficients and times','continuum',[Z+': evalD, computeU, dmul, evalIntegral'])
P('C47','Knot, segment and coefficient counts are consistent',
  'The number of knots required for s segments, valid segments for k knots, and coefficients required are mutually inverse, for every order.',
  'every order >= 2 and every segment count','unbounded integers',[Z+': numKnotsRequired, numValidTimeSegments, numCoefficientsRequired'])
# ---------------------------------------------------------------- kinematics
N='Schweizer-Messer/sm_kinematics/src/'
P('C48','Quaternion composition is composition of rotations',
  'The rotation matrix of a product of quaternions is the product of their rotation matrices; rotating a vector by the quaternion equals multiplying by the matrix; the inverse quaternion gives the transposed matrix; unit quaternions give proper rotations.',
  'all quaternions and vectors','continuum',[N+'quaternion_algebra.cpp: qplus, quat2r, quatRotate, quatInv, quatPlus, quatOPlus'])
P('C49','Rotation matrix to quaternion and back',
  'Converting a rotation matrix to a quaternion and back returns the same matrix, for every rotation (including half turns); the quaternion is unit and has non-negative scalar part.',
  'all of SO(3)','four numeric branches, each exercised on a region',[N+'quaternion_algebra.cpp: r2quat, quat2r'])
P('C50','Rigid transformations form a group acting on points',
  'Composition, inversion and identity of transformations satisfy the group laws and agree with the 4x4 homogeneous matrices and with their action on points.',
  'all transformations and points','continuum',[N+'Transformation.cpp: operator*, inverse, T',N+'transformations.cpp: inverseTransform'])
P('C51','Rotation vector round trip',
  'For every rotation vector shorter than pi, converting to a rotation matrix and back returns the vector; the matrix is a proper rotation.',
  'all vectors','singular neighbourhoods at 0 and pi',[N+'RotationVector.cpp: parametersToRotationMatrix, rotationMatrixToParameters',N+'rotations.cpp: axisAngle2R, R2AxisAngle'])
P('C52','Euler-angle rates give the true angular velocity',
  'For each Euler parameterisation the S matrix times the parameter rates is the angular velocity of the rotation matrix, and the reported Jacobian is its true derivative.',
  'all angles and rates','continuum, calculus',[N+'EulerAnglesZYX.cpp',N+'EulerAnglesYawPitchRoll.cpp',N+'EulerRodriguez.cpp'])
P('C53','Axis-angle rotation depends continuously on the angle',
  'axisAngle2R(a, axis) is the rotation by angle a about the axis for every real angle a, positive or negative.',
  'all angles and unit axes','the shortcut for tiny angles catches all negative ones',[N+'rotations.cpp: axisAngle2R'])
# ---------------------------------------------------------------- cameras
C='aslam_cv/aslam_cameras/include/aslam_cameras/cameras/implementation/'
P('C54','Pinhole back-projection inverts projection',
  'A point in front of the camera projects to a keypoint whose back-projected ray is the direction of the point, given a distortion whose undistort inverts distort; a back-projected valid keypoint projects to itself.',
  'all points and keypoints, all non-zero focal lengths','continuum',[C+'PinholeProjection.hpp: euclideanToKeypoint, keypointToEuclidean'])
P('C55','Projection Jacobians are the derivatives',
  'The Jacobians returned with a projection (with respect to the point, the intrinsics and the distortion parameters) are the derivatives of the projection.',
  'all points and parameters','continuum, calculus',[C+'PinholeProjection.hpp',C+'RadialTangentialDistortion.hpp',C+'OmniProjection.hpp',C+'FovDistortion.hpp',C+'EquidistantDistortion.hpp'])
P('C56','Homogeneous projection ignores the sign of the scale',
  'Projecting a homogeneous point and its negation give the same keypoint and validity, with or without the Jacobian being requested.',
  'all homogeneous points','one overload only, negative scale only',[C+'PinholeProjection.hpp: homogeneousToKeypoint',C+'OmniProjection.hpp: homogeneousToKeypoint'])
P('C57','Omnidirectional back-projection inverts projection',
  'For every mirror parameter, a point accepted by the projection is back-projected to a ray parallel to it with the same orientation.',
  'all points, all mirror parameters >= 0','continuum with two mirror regimes',[C+'OmniProjection.hpp: euclideanToKeypoint, keypointToEuclidean'])
P('C58','Calibration target indices and coordinates correspond',
  'Grid coordinates and point indices are inverse to each other, every point of a target has a distinct index, and asking for a point pointer with a valid index succeeds while an invalid one raises.',
  'all grid sizes and indices','coincidence on square grids and on the diagonal',['aslam_cv/aslam_cameras/src/GridCalibrationTargetBase.cpp'])
P('C59','Target observations report exactly the observed corners',
  'After any sequence of corner updates and removals, the corner lists in image frame, target frame and index form have the same length, the same order and list exactly the currently observed corners.',
  'every history of updates/removals','unbounded histories',['aslam_cv/aslam_cameras/src/GridCalibrationTargetObservation.cpp','aslam_cv/aslam_cameras/src/GridDetector.cpp: findTarget'])
P('C60','Undistortion stops at an exact solution',
  'If an iterative undistortion starts from (or reaches) a point whose distortion equals the measurement, it returns that point; in particular the image centre is undistorted to itself.',
  'all distortion parameters and points','continuum; division by zero at the centre',[C+'RadialTangentialDistortion.hpp: undistort',C+'EquidistantDistortion.hpp: undistort',C+'FovDistortion.hpp: undistort'])
P('C61','Container permutation applies the given permutation',
  'Permuting a container by an index vector that is a permutation puts element p[i] at position i; any other index vector of the right length is rejected without changing the container.',
  'every container and every index vector','unbounded sizes and every malformed vector',['aslam_incremental_calibration/aslam_incremental_calibration/include/aslam_incremental_calibration/algorithms/permute.tpp: permute'])
P('C62','Saving and restoring the merged problem touches exactly its variables',
  'Restoring after a save gives every design variable of the merged problem the value it had at the save, and changes no variable that is not in the problem.',
  'every history of the merged problem and every sequence of writes between save and restore','unbounded histories, aliasing',['aslam_incremental_calibration/aslam_incremental_calibration/src/core/IncrementalOptimizationProblem.cpp: saveDesignVariables, restoreDesignVariables, clear'])
P('C63','An estimator call that raises leaves the estimator unchanged',
  'If addBatch, removeBatch or reoptimize raises, the batches, the design-variable values and the stored estimates are the same as before the call.',
  'every estimator history, every batch and every solver failure','exception paths after partial mutation',['aslam_incremental_calibration/aslam_incremental_calibration/src/core/IncrementalEstimator.cpp: addBatch, removeBatch, reoptimize'])

P('C64','Appending to an archive file adds the entries','After append on an existing archive file, loading the file gives its previous entries together with the appended ones.','every existing file and every archive','every content of file and archive',['Schweizer-Messer/sm_matrix_archive/src/MatrixArchive.cpp: append'])
P('C65','A damaged archive file is rejected','Loading a file that is not a sequence of complete blocks raises an exception.','every byte sequence','every truncation point and every damaged byte of every file',['Schweizer-Messer/sm_matrix_archive/src/MatrixArchive.cpp: load, readBlock, readMatrix, readString'])

P('C66','The shipped tag families have their declared minimum distance','In every shipped code table, any two code words differ in at least the declared number of cells whatever the rotation of either, and a code word differs from its own rotations by at least as much.','every pair of codes of every shipped table and all four rotations','the tables are data; one mistyped or symmetric word breaks identification of particular tags only',['aslam_offline_calibration/aslam_apriltag2/include/aslam_apriltag2/Tag36h11.h: t36h11','aslam_offline_calibration/aslam_apriltag2/include/aslam_apriltag2/Tag16h5_other.h: t16h5_other','aslam_offline_calibration/aslam_apriltag2/include/aslam_apriltag2/Tag36h11_other.h: t36h11_other'])
P('C67','A calibration-target tag survives five misread cells','With the code table of the calibration target (36h11), every tag seen in any rotation with at most five misread cells is identified with its id and rotation.','every tag, rotation and set of at most five misread cells','587 tags times 4 rotations times 443,704 error patterns',['aslam_cv/aslam_cameras_april/src/GridCalibrationTargetAprilgrid.cpp: _tagCodes','aslam_offline_calibration/aslam_apriltag2/src/TagFamily.cc: decode'])

P('C68','J() is the cost of the current state','After optimize() returns, J() is the cost of the design variables as they were left.','every cost landscape and every sequence of proposed steps','depends on whether the last step was rejected',['aslam_optimizer/aslam_backend/src/Optimizer2.cpp: optimize, J'])
P('C69','Optimisation stops when it has converged','optimize() stops after the first pass whose step is at most convergenceDeltaX or whose cost change is at most convergenceDeltaJ.','every cost landscape, every sequence of proposed steps and solver failures','depends on the history of solver failures',['aslam_optimizer/aslam_backend/src/Optimizer2.cpp: optimize'])

P('C70','An exception in an error term reaches the caller','If evaluating an error term throws, evaluating the error of the whole problem throws that exception, whatever the number of threads; otherwise it returns.','every set of error terms, every number of threads, every interleaving','depends on thread interleaving and on which terms throw',['aslam_optimizer/aslam_backend/src/LinearSystemSolver.cpp: setupThreadedJob, SafeJob, evaluateError'])

P('C71','The Hessian contribution of an error term','Evaluating an error term into the normal equations adds J_i^T W J_j to every block (i,j) with i not after j, subtracts J_i^T W e from the right-hand side segment of variable i, with Jacobians scaled by the variable scaling, and changes nothing else.','every error term, every set of design variables, every state of the equations','every block order and every combination of variables',['aslam_optimizer/aslam_backend/src/JacobianContainer.cpp: evaluateHessian, buildHessianBlock, buildCorrelatedHessianBlock'])
P('C72','Symmetric permutation of a sparse block matrix','Permuting a block matrix with equal row and column layout yields the matrix whose dense form is the row and column permuted dense form; with the upper-triangle option the stored upper triangle is the upper triangle of the permuted symmetric matrix.','every block matrix and every permutation of its blocks','every layout, sparsity pattern and permutation',['aslam_optimizer/aslam_sparse_block_matrix/include/aslam_sparse_block_matrix/implementation/sparse_block_matrix.hpp: symmPermutation'])

P('C73','Solving a damped system leaves the system unchanged','With the block Cholesky solver, solving with a diagonal conditioner c solves the system whose matrix is the built one plus c^2 on the diagonal, and afterwards the stored matrix is the built one again, so that further solves with other conditioners damp the same system.','every system, every conditioner, every number of solves after one build','depends on the values of the conditioner and on repeated solves',['aslam_optimizer/aslam_backend/src/BlockCholeskyLinearSystemSolver.cpp: solveSystem'])
P('C74','Curvature along the right-hand side','The curvature a solver reports along its right-hand side r is r^T (J^T J) r for the Jacobian J of the built system.','every system','every combination of correlated variables',['aslam_optimizer/aslam_backend/src/BlockCholeskyLinearSystemSolver.cpp: rhsJtJrhs'])
P('C75','The sparse Jacobian builder assembles the Jacobian of the problem','After the matrix structure has been initialised for the error terms and the weighted Jacobians have been evaluated, by any number of threads and in any order, the sparse matrix is the transposed Jacobian of the whole problem: column block k holds the transposed Jacobian of error term k, each variable in its own rows, whatever the matrix held before.','every list of error terms, every layout of the variables, every order of evaluation','threads write in any order, sizes are unbounded',['aslam_optimizer/aslam_backend/include/aslam_backend/backend/implementation/CompressedColumnJacobianTransposeBuilder.hpp: initMatrixStructure, evaluateJacobians','aslam_optimizer/aslam_backend/include/aslam_backend/backend/implementation/CompressedColumnMatrix.hpp: appendJacobiansSymbolic, writeJacobians'])

P('C76','Stopping and destroying a job queue','After stop() no further job is started, and jobs not started stay in the queue; join() returns once the running jobs have finished; when the destructor returns no job runs and no worker uses the queue any more.','every interleaving of clients and workers, any number of workers','schedules are unbounded and non-deterministic; the flag is set without the mutex',['Schweizer-Messer/sm_boost/src/JobQueue.cpp: stop, join, ~JobQueue, exec_loop'])

P('C77','The robust cost grows with the error','The cost of an error term under a robust weight never decreases when its squared error grows, and equals the squared norm of the weighted error vector used to build the linear system.','every error value and every positive parameter','continuum of errors and parameters',['aslam_optimizer/aslam_backend/src/ErrorTerm.cpp: getWeightedSquaredError','aslam_optimizer/aslam_backend/src/MEstimatorPolicies.cpp: getWeight','aslam_optimizer/aslam_backend/include/aslam_backend/backend/implementation/ErrorTerm.hpp: getWeightedError'])
P('C78','A rejected step makes the next one shorter','After a step has been rejected, the next dog-leg step is at most half as long, and the Levenberg-Marquardt damping at least doubles.','every history of costs, systems and rejections','depends on the costs of several previous steps',['aslam_optimizer/aslam_backend/src/TrustRegionPolicy.cpp: solveSystem, get_dJ','aslam_optimizer/aslam_backend/src/DogLegTrustRegionPolicy.cpp: solveSystemImplementation','aslam_optimizer/aslam_backend/src/LevenbergMarquardtTrustRegionPolicy.cpp: solveSystemImplementation'])
P('C79','A step is computed from the system of the current state','The step returned by a trust-region policy is computed from the linear system of the current state, never from that of an earlier state.','every history of costs, systems, rejections and solver failures','depends on which branch was taken for several previous steps',['aslam_optimizer/aslam_backend/src/DogLegTrustRegionPolicy.cpp: solveSystemImplementation','aslam_optimizer/aslam_backend/src/LevenbergMarquardtTrustRegionPolicy.cpp: solveSystemImplementation'])

P('C80','Updating a quaternion','The quaternion update and the increment of a transformation turn the rotation by the length of the given vector about its direction, keep unit quaternions, do nothing for zero, and reach every rotation.','all unit quaternions and vectors','continuum; a threshold for small vectors',[N+'quaternion_algebra.cpp: updateQuat',N+'Transformation.cpp: oplus'])
P('C81','Exponential and logarithm of quaternions','axisAngle2quat gives the unit quaternion of the turn by the length of the vector, and quat2AxisAngle undoes it for vectors shorter than a full turn; conversely every unit quaternion other than minus one is recovered from its logarithm.','all vectors and unit quaternions','continuum with four numerical branches',[N+'quaternion_algebra.cpp: axisAngle2quat, quat2AxisAngle'])
P('C82','Euler angles and rotation matrices','Euler angles in their range are recovered from the matrix they give, every rotation matrix is the matrix of its Euler angles, and these matrices are proper rotations.','all angles in range and all rotation matrices, three conventions','continuum, gimbal lock',[N+'EulerAnglesYawPitchRoll.cpp',N+'EulerAnglesZYX.cpp',N+'EulerAnglesZXY.cpp',N+'rotations.cpp: R2rph, rph2R, C2rph, rph2C'])
P('C83','Rates and angular velocity correspond','The S matrix of quaternions turns rates into the angular velocity of the rotation, and the inverse S matrices of quaternions and rotation vectors turn it back.','all parameters and rates','continuum, calculus',[N+'quaternion_algebra.cpp: quatS, quatInvS',N+'RotationVector.cpp: parametersToSMatrix, parametersToInverseSMatrix'])
P('C84','Interpolation of rotations and transformations','Interpolation returns the first end at and before its time, the second at and after its time, and in between the translation on the straight line and the rotation turned by the elapsed fraction of the shorter turn from the first to the second, whichever end is given first.','all pairs of transformations and all times','continuum; double cover of the rotations',[N+'quaternion_algebra.cpp: qslerp, lerp',N+'Transformation.cpp: slerpTransformations, interpolateTransformations'])
P('C85','Rodrigues parameters and rotation matrices','Rodrigues parameters give a proper rotation, the turn about their direction by twice the arc tangent of their length, and are recovered from it.','all parameter vectors','continuum',[N+'EulerRodriguez.cpp: parametersToRotationMatrix, rotationMatrixToParameters'])

P('C86','Extended unified back-projection inverts projection','For every admissible parameter pair, a point accepted by the projection is back-projected to its direction, and a keypoint the model can reach is back-projected to a unit ray that projects to the keypoint.','all points and keypoints, all alpha in [0,1] and beta > 0','continuum of points and parameters; a case split in the field of view test',[C+'ExtendedUnifiedProjection.hpp: euclideanToKeypoint, keypointToEuclidean, updateTemporaries'])
P('C87','Double sphere back-projection inverts projection','For every admissible parameter pair, a point accepted by the projection is back-projected to its direction, and a keypoint the model can reach is back-projected to a unit ray that projects to the keypoint.','all points and keypoints, all alpha in [0,1] and xi in (-1,1]','continuum of points and parameters; the field of view test is wrong only for some parameters',[C+'DoubleSphereProjection.hpp: euclideanToKeypoint, keypointToEuclidean, updateTemporaries'])
T='aslam_cv/aslam_cameras/src/'
P('C88','Target points lie where documented and never coincide',
 'A checkerboard, circle grid or April grid can be constructed exactly from positive sizes; its point in row r and column c lies at the documented position, every stored point is written, and two different indices never denote the same position.',
 'all numbers of rows and columns, all sizes and spacings, all contents of the freshly allocated storage','tests construct one or two boards; axis mix-ups are invisible on square boards',
 [T+'GridCalibrationTargetCheckerboard.cpp',T+'GridCalibrationTargetCirclegrid.cpp','aslam_cv/aslam_cameras_april/src/GridCalibrationTargetAprilgrid.cpp: createGridPoints'])
P('C89','April tag corners are stored at the point of the board they belong to',
 'Whatever the output arguments hold, extracting an April grid fails exactly when too few usable tags are seen, refuses exactly when a usable tag identifier appears twice, and otherwise stores each corner of each usable tag at the index of the board point where that corner lies, flags it exactly when refinement moved it little enough, and flags no other point.',
 'all board sizes, all lists of detections, all options, all refinements','tests use a few images; the space of detection lists is unbounded',
 ['aslam_cv/aslam_cameras_april/src/GridCalibrationTargetAprilgrid.cpp: computeObservation'])
P('C90','The corner outlier filter removes exactly the outliers',
 'Filtering an observation removes exactly the corners whose reprojection error exceeds the mean by the given number of standard deviations and the absolute threshold, changes nothing else, never removes all corners, and removes at most a share of 1/sigma^2 of them.',
 'all observations, cameras, poses and thresholds','statistical worst cases and index misalignment are not reached by samples',
 [T+'GridDetector.cpp: findTarget'])
P('C91','Finding a target leaves an observation of the current image only',
 'Whatever an observation held before, after a target search it holds exactly the corners extracted from the current image less the outliers; the search succeeds exactly when extraction and pose estimation do; on success the pose is the estimate and on failure there is none.',
 'all earlier histories of the observation, all extraction results, all cameras','reuse histories are unbounded',
 [T+'GridDetector.cpp: findTarget, findTargetNoTransformation'])
P('C92','Iterative undistortion comes close to the undistorted point',
 'Undistorting the distorted image of a point returns that point up to a stated bound: for the radial-tangential distortion the five iterations square the error each time, for the equidistant distortion the twenty iterations shrink it by a constant factor each time.',
 'all points and parameters in stated ranges, and all points near which the distortion is regular','continuum; tests check a few hundred random points for one parameter set',
 [C+'RadialTangentialDistortion.hpp: undistort',C+'EquidistantDistortion.hpp: undistort'])
B='aslam_optimizer/aslam_backend_expressions/'
P('C93','Expression values and Jacobians are the value and the derivative of the expression',
 'After an expression of rotations, points, scalars, homogeneous points, transformations and matrices is evaluated, the Jacobian it collects is the derivative of its value with respect to updates of its active design variables, whatever other evaluations happen in between and however nodes are shared; the value is that of the mathematical expression.',
 'all expression trees of the library nodes, all design variable values at which nothing is divided by zero, all increments, all interleaved evaluations, all contents of the node members before','unbounded trees, continuum of values, histories of shared mutable members',
 [B+'src/RotationExpressionNode.cpp',B+'src/EuclideanExpressionNode.cpp',B+'src/HomogeneousExpressionNode.cpp',B+'src/TransformationExpressionNode.cpp',B+'src/TransformationBasic.cpp',B+'src/ScalarExpressionNode.cpp',B+'src/MatrixBasic.cpp'])
P('C94','An expression reports exactly the design variables it depends on',
 'The value of an expression depends on the reported design variables only, and every design variable with a Jacobian block is reported, so that no error term misses a variable.',
 'all expression trees and states','unbounded trees',
 [B+'src/*ExpressionNode.cpp: getDesignVariablesImplementation'])
P('C95','Reverting an update restores the design variables',
 'Whatever updates and reverts came before, updating any set of expression design variables by any increments and reverting that set restores the value of every expression.',
 'all histories of updates and reverts, all sets of variables, all increments','unbounded histories',
 [B+'src/RotationQuaternion.cpp',B+'src/EuclideanPoint.cpp',B+'src/Scalar.cpp',B+'src/HomogeneousPoint.cpp',B+'src/EuclideanDirection.cpp',B+'src/MatrixBasic.cpp'])
P('C96','Minimal difference undoes an update',
 'The minimal difference of an updated design variable to its old parameters is the increment of the update.',
 'all parameters and increments (shorter than a full turn for rotations)','continuum',
 [B+'src/RotationQuaternion.cpp: minimalDifferenceImplementation',B+'src/EuclideanPoint.cpp',B+'src/Scalar.cpp',B+'src/HomogeneousPoint.cpp',B+'src/MappedRotationQuaternion.cpp'])
P('C97','Prior error terms and their Jacobians',
 'The error of a prior on a point or a transformation is zero at the prior, and the Jacobian it collects is the derivative of the error vector.',
 'all expressions, priors and increments','continuum, unbounded trees',
 [B+'src/ErrorTermEuclidean.cpp',B+'src/ErrorTermTransformation.cpp'])
S='aslam_nonparametric_estimation/'
P('C98','Pose spline rates are the derivatives of the pose',
 'The pose returned by a pose spline is a rigid transformation; its linear velocity and acceleration are the first and second derivative of its position; its angular velocity is that of its orientation; body-frame quantities are the world-frame ones rotated by the inverse orientation; the angular acceleration in the body frame is the derivative of the angular velocity in the body frame.',
 'all orders, knots, coefficients and orientation families, all times strictly inside a segment','continuum of splines and times; tests compare finite differences at a few times',
 [S+'aslam_bsplines/src/BSplinePose.cpp'])
P('C99','Pose spline Jacobians are the derivatives of the values',
 'Every method of a pose spline that returns a Jacobian returns, along with it, the value that the method without Jacobian returns, and the Jacobian is the derivative of that value with respect to changes of all the coefficients that take part.',
 'all orders, knots, coefficients, orientation families, times and increments','continuum; tests use finite differences at a few random splines',
 [S+'aslam_bsplines/src/BSplinePose.cpp: *AndJacobian'])
P('C100','Expressions on a pose spline announce the right Jacobians for the right variables',
 'The expressions for pose, orientation, position, velocity, acceleration and angular rates of a pose spline hand out, for each of the design variables that take part, the Jacobian of their value times the chain rule matrix. When the time is an expression too, every time of the domain within the given margins can be evaluated, only design variables declared beforehand take part, and the Jacobian with respect to the time is the time derivative of the pose.',
 'all splines, times, margins, increments and chain rule matrices','continuum; index shifts appear only away from the start of the spline',
 [S+'aslam_splines/src/BSplineExpressions.cpp'])
P('C101','The quadratic motion integrals of a spline are the integrals they claim to be',
 'The matrix returned for a weight and a derivative order is such that, for all coefficients, the quadratic form of the stacked coefficients is the integral over the valid time of the weighted squared derivative of the curve; the dense, sparse and diagonal versions return the same matrix; a weight matrix of the wrong size or that is not symmetric is rejected and no other.',
 'all orders, dimensions, knots (repeated ones included), coefficients, weights and derivative orders','continuum of splines; the integrals are not compared to anything in the tests',
 [S+'aslam_bsplines/src/BSpline.cpp: curveQuadraticIntegral, curveQuadraticIntegralSparse, curveQuadraticIntegralDiag, curveQuadraticIntegralDiagSparse, segmentQuadraticIntegral'])
P('C102','The motion error of a spline is its motion integral and its normal equations are exact',
 'The motion error is the integral of the weighted squared derivative of the curve; the contribution to the normal equations makes the quadratic model of the optimizer equal to the error for every step of the active design variables.',
 'all splines, weights, derivative orders, active sets, steps and previous contents of the normal equations','continuum; active sets are exponential in number',
 [S+'aslam_splines/include/aslam_splines/implementation/BSplineMotionError.hpp'])
P('C103','The motion error terms of a spline add up to its motion integral',
 'The error terms added for the motion of a spline have squared errors that add up to the motion integral of the curve that the design variables hold, now and after every update, and their Jacobians are the derivatives of their errors.',
 'all splines, positive semidefinite weights, derivative orders and update histories','continuum and unbounded histories',
 [S+'aslam_splines/include/aslam_splines/implementation/BSplineMotionErrorFactory.hpp: addMotionErrorTerms',S+'aslam_bsplines/src/BSpline.cpp: segmentIntegral','aslam_optimizer/aslam_backend/src/MarginalizationPriorErrorTerm.cpp'])
P('C104','A mapped vector design variable follows its updates',
 'Updating adds the increment, reverting restores the value from before the last change, setting parameters gives the value set, and the minimal difference to a vector is the difference of the present value to it.',
 'all values and histories','unbounded histories',
 ['aslam_optimizer/aslam_backend_expressions/include/aslam_backend_expressions/implementation/DesignVariableMappedVector.hpp'])
K='aslam_offline_calibration/kalibr/'
P('C105','The error terms of an inertial measurement unit compare the measurement with the motion of the spline',
 'Each measurement strictly inside the valid time of the pose spline, and no other, gets an error term. Its error is the predicted minus the measured vector, its Jacobian is the derivative of the error for every update, and it reports the variables it depends on. The predicted rotation rate is that of the orientation of the spline, and the predicted acceleration is the specific force at the place of the accelerometer, both in the coordinates of the unit and with the present bias. With neutral values of their additional parameters the larger models predict what the smaller ones do.',
 'all pose and bias splines, orientation families, unit parameters, times, measurements, update directions and evaluation histories','continuum; tests use finite differences at one random time',
 [K+'python/kalibr_imu_camera_calibration/IccSensors.py: addAccelerometerErrorTerms, addGyroscopeErrorTerms',K+'src/EuclideanError.cpp',K+'src/AccelerometerError.cpp',K+'src/GyroscopeError.cpp'])
V='aslam_cv/aslam_cv_error_terms/include/aslam_cv_error_terms/implementation/'
G='aslam_cv/aslam_cameras/'
P('C106','The reprojection error and all its Jacobians are those of the camera it was made for',
 'For an observable point, the reprojection error is the measurement minus the keypoint the camera gives for the point, and its Jacobian is the derivative of that error for every joint update of the variables behind the point, of the projection and of the distortion. Updates of the measurement change the error accordingly. The simple error does the same without the variables of the camera.',
 'all expressions for the point, cameras of all four projections and all distortions, parameters, measurements and update directions','continuum; the tests use finite differences at one random point',
 [V+'ReprojectionError.hpp',V+'SimpleReprojectionError.hpp','aslam_cv/aslam_cv_backend/include/aslam_cv_backend/implementation/CameraDesignVariable.hpp'])
P('C107','A camera can be treated as one vector of parameters',
 'For every choice of the parts to estimate, the update of a camera reads exactly the entries that its number of dimensions says, the stacked Jacobians of keypoint and of offset in time have one column for each of them and are the derivatives with respect to that vector, asking for the parameters gives the parts in the order of the update, and setting them gives a camera with exactly these parameters and leaves the other parts alone.',
 'all cameras, all eight choices of parts, all points, vectors and parameter columns','continuum times eight choices; only single parts are tested',
 [G+'include/aslam_cameras/cameras/implementation/CameraGeometry.hpp: update, minimalDimensions, getParameters, setParameters, euclideanToKeypointIntrinsicsJacobian, homogeneousToKeypointIntrinsicsJacobian, temporalOffsetIntrinsicsJacobian',G+'src/FovDistortion.cpp: update'])
P('C108','The time of a keypoint is the time at which its row was read',
 'The time of a keypoint is the stamp of the image plus line delay times row to within a nanosecond, refused exactly when it cannot be represented; rows keep their order; a global shutter gives the stamp; the expression follows the line delay if the shutter is estimated and is constant otherwise; its Jacobian is the derivative.',
 'all stamps, line delays, rows and updates','continuum; the rounding changes at every nanosecond',
 [G+'include/aslam_cameras/cameras/RollingShutter.hpp: temporalOffset',G+'include/aslam_cameras/implementation/Frame.hpp: keypointTime','aslam_cv/aslam_cv_backend/include/aslam_cv_backend/implementation/ScalarExpressionNodeKeypointTime.hpp'])
F=S+'aslam_bsplines/src/BSpline.cpp: '
P('C109','A constant spline is constant',
 'Initialising a spline as a constant over an interval gives a spline with the requested order, valid over exactly that interval and with the requested number of segments, whose value is the constant and whose derivatives vanish at every valid time. Empty intervals, no segments and empty vectors are rejected.',
 'all orders, intervals, numbers of segments, constants and times','continuum of times and constants, all orders',
 [F+'initConstantSpline'])
P('C110','The coefficients of a spline can be read and written as vectors',
 'Setting the stacked coefficient vector and reading it back gives the vector; the vector of a time or of a segment is the part of the stacked vector at the indices reported for it; writing it changes these coefficients only; the value and the derivatives at a time are the matrix for the time times the vector of the time. Wrong sizes and indices are rejected.',
 'all splines, times, segments and vectors','all orders, dimensions and sizes; index arithmetic goes wrong away from the first segment',
 [F+'setCoefficientVector, coefficientVector, setCoefficientMatrix, localCoefficientVector, localCoefficientVectorIndices, localVvCoefficientVectorIndices, segmentCoefficientVector, setLocalCoefficientVector, Phi'])
P('C111','The curve determines the coefficients',
 'Two splines on the same distinct knots whose values agree at all valid times have the same coefficients, and on every segment every polynomial of degree less than the order is the curve for exactly one choice of coefficients.',
 'all orders, knots without repetition, coefficients','an infinite family of linear systems must be nonsingular',
 [F+'setKnotsAndCoefficients, evalD, M'])
P('C112','A spline through two points is the straight line between them',
 'Initialising a spline with two times and two points gives a spline that is valid between the times, starts at the first and ends at the second point, moves between them on a straight line with constant velocity, and has vanishing higher derivatives. Times that do not increase are rejected.',
 'all orders (even and odd), times and points','continuum; a linear system must be solvable for every order',
 [F+'initSpline'])
P('C113','Appending a segment extends a spline',
 'Appending a segment for a time after the end and a point gives a spline that is valid up to the new time with one more segment, goes through the new point at the new end, is continuous with the old curve at the old end, and does not change the curve before. Times that are not after the end are rejected.',
 'all splines, times and points','continuum; knots away from the end change only for larger orders',
 [F+'addCurveSegment, addCurveSegment2'])
P('C114','A fitted spline is the best one on its knots',
 'Fitting a spline to points gives the knots asked for and coefficients of least cost, the cost being the sum of the squared distances from the points plus a factor times the integral of a squared derivative of the curve (in one variant the squared factor times the sum of the squared accelerations at the borders of the segments). The dense and the sparse variants do the same. If the points can be matched exactly without cost, the curve passes through them. Fewer than two points, no segment or decreasing times are rejected.',
 'all orders, points, nondecreasing times, numbers of segments, factors, competing coefficients','minimality over a continuum of competitors',
 [F+'initSpline2, initSpline3, initSplineSparse, initSplineSparseKnots'])
P('C115','Marginal covariances are entries of the inverse Hessian',
 'From the Cholesky factor of a symmetric matrix, with or without a fill-reducing permutation, the covariance functions deliver the blocks asked for and no others (the diagonal blocks, the upper triangle, or a list of blocks), each at the right place and holding the entries of the inverse of the matrix. A matrix that is not positive definite is an exception.',
 'all sizes, sparsity patterns of the factor, permutations, block structures and lists of blocks','the recursion over the pattern of the factor visits entries in an order that depends on every one of them; the index overflows only at sizes no test uses',
 ['aslam_optimizer/aslam_sparse_block_matrix/src/marginal_covariance_cholesky.cpp: computeEntry, computeCovariance','aslam_optimizer/aslam_backend/src/Optimizer.cpp: computeCovariances, computeDiagonalCovariances'])
P('C116','Marginalising variables loses nothing',
 'Marginalising the first variables out of a least squares problem gives an error term on the remaining variables whose cost, up to a constant, is the least cost of the linearised problem over all displacements of the removed variables; its Jacobians are the derivatives of its error. The indices of all variables and error terms are as before, also after an exception. The covariance of the first rows is the corresponding block of the inverse of the normal matrix. Variables or terms given twice, too few equations, and removing every variable are rejected.',
 'all lists of variables and error terms of any dimensions, all numbers of variables to remove, all displacements','quantifies over displacements in a continuum and over all problem structures; the exceptions leave hidden state behind',
 ['aslam_optimizer/aslam_backend/src/Marginalizer.cpp: marginalize','aslam_optimizer/aslam_backend/src/MarginalizationPriorErrorTerm.cpp','aslam_optimizer/aslam_backend/src/DenseQrLinearSystemSolver.cpp: buildSystem'])
P("C117", "Solving with one group of unknowns eliminated",
  "The linear solver of the incremental calibration eliminates the first group of unknowns by an orthogonal factorisation and solves for the second by singular values. A call that returns a step returns a least squares solution of the whole system, whatever the column scaling; the singular values and vectors it reports describe the information the equations carry about the second group, and the reported covariance is the inverse of that information at full rank. The reported rank is the number of singular values above the tolerance. Systems of wrong sizes, with an empty group, or with too few equations are refused without a step.",
  "all systems, sizes, groupings, tolerances and scalings, and all histories of earlier analyses",
  "One component of the residual is lost for every system, which a test with consistent equations does not show; the claim is about all right hand sides.",
  ["aslam_incremental_calibration/aslam_incremental_calibration/src/core/LinearSolver.cpp: LinearSolver::solve, analyzeMarginal, solveSystem, getNullSpace, getCovariance, clear",
   "aslam_incremental_calibration/aslam_incremental_calibration/src/algorithms/linalg.cpp: columnSubmatrix, rowSubmatrix, columnScalingMatrix, estimateNumericalRank, rankTol, svGap, reduceLeftHandSide, reduceRightHandSide, solveSVD, solveQR"])
P("C118", "Information about one group of unknowns",
  "marginalize() splits the columns of a Jacobian into two groups and returns the information matrix of the second: for all values of the second group, its quadratic form is the least sum of squares the first group can leave. The covariance returned is its inverse at full rank and a generalised inverse otherwise, the null space and column space returned are an orthonormal basis split by rank, the projected covariance is the covariance in that basis, and the logarithms added are those of factors of the determinant.",
  "all Jacobians, groupings and tolerances",
  "A statement about a minimum over all values of one group for all values of the other, and about all ranks.",
  ["aslam_incremental_calibration/aslam_incremental_calibration/src/algorithms/marginalize.cpp: marginalJacobian, marginalize"])
K='aslam_offline_calibration/kalibr/python/'
P('C119','Reading a recording',
 'Reading the messages of a topic delivers every message once, in the order of the header stamps. With a time window it delivers exactly the messages whose stamp lies in the window, counted from the first stamp. An empty recording or a window that does not end after it starts is an exception.',
 'all recordings, in whatever order the messages were recorded, and all windows','recordings in which the order of arrival differs from the order of the stamps are rare and unbounded in shape',
 [K+'kalibr_common/ImageDatasetReader.py: BagImageDatasetReader',K+'kalibr_common/ImuDatasetReader.py: BagImuDatasetReader'])
P('C120','Extraction of targets with several workers',
 'Extracting the target from the images of a camera with several worker processes delivers the observations that the extraction without workers delivers, in the order of the images, however many workers there are and in whatever order they are scheduled; it ends, and an error of the detector is an error of the extraction.',
 'all numbers of images and workers, all schedules, all results of the detector','depends on the schedule of the processes and on the point at which one of them dies',
 [K+'kalibr_common/TargetExtractor.py: multicoreExtractionWrapper, extractCornersFromDataset'])
P('C121','The observations of a rig are grouped into views',
 'Adding observations of several cameras, in any order, gives views in which each camera has at most one observation and all of them are within the tolerance of the time of the view; different views are further apart than the tolerance. Each observation is in one view, or it is refused because its camera is in a near view already. The queries for one camera and for pairs of cameras deliver just what is in the views. If the images come in groups within the tolerance, the views are the groups in whatever order they are added.',
 'all histories of added observations, all tolerances','the views depend on the whole history of insertions',
 [K+'kalibr_camera_calibration/ObsDb.py: ObservationDatabase'])
P('C122','The graph of common views',
 'In the graph two cameras are joined exactly if in some view they see a corner in common, with the number of common corners over all the views as weight. There is at most one edge between two cameras and none from a camera to itself. The common observations of two cameras are delivered in pairs and in order. The graph is built for every set of observations.',
 'all histories of observations, all orders in which pairs of cameras are visited','quantifies over all databases; python dictionaries fix no order',
 [K+'kalibr_camera_calibration/MulticamGraph.py: MulticamCalibrationGraph.initializeGraphFromObservations, getAllMutualObsBetweenTwoCams'])
P('C123','Initial baselines and target poses come from the graph',
 'If every chosen pair of cameras is calibrated exactly, the initial baselines are the transformations from each camera to the next, whichever edges and paths were chosen; and the initial pose of the target in a view is its pose in the frame of the first camera, computed from a camera that sees most corners.',
 'all graphs, choices of edges and paths, numbers of cameras, all groups of transformations','induction over paths in an arbitrary graph',
 [K+'kalibr_camera_calibration/MulticamGraph.py: getInitialGuesses, getTargetPoseGuess'])
P('C124','Error terms of a view',
 'The problem of a view has exactly one error term for each corner that each camera sees, comparing it with the projection through the chain of baselines up to that camera. The statistics of a corner are those of its own error term. The list of reprojection errors of a camera has one place per view.',
 'all rigs, views and sets of corners','all combinations of cameras and corners seen',
 [K+'kalibr_camera_calibration/CameraCalibrator.py: OptimizationProblem.addView, CalibrationTargetOptimizationProblem.fromTargetViewObservations, getPointStatistics, getReprojectionErrors'])
P('C125','The outlier filter of the camera calibration',
 'The filter does not fail whatever the estimator answers; at the end the views of the calibrator are the batches of the estimator and hold the corners left in their observations. A corner is removed if and only if when its view was checked its error was larger than four standard deviations of its camera, so that few corners are removed. A restart after a divergence begins as the first attempt did.',
 'all answers of the estimator, all orders of the views, all observations and settings','a loop whose state depends on every earlier decision of the estimator; restarts at arbitrary points',
 [K+'kalibr_calibrate_cameras: main',K+'kalibr_camera_calibration/CameraCalibrator.py: CameraCalibration.addTargetView, removeCornersFromBatch'])
P('C126','Adaptive knot sequences of the rolling shutter calibration',
 'The new knot sequence is strictly increasing and consists of old knots and middles of old segments. A segment is split exactly if the sum of the errors in it is larger than the number of its terms, its halves are longer than the limit and it is not disabled; knots without observations are dropped. Each observation counts for the segment it lies in. A strategy does not depend on other strategies, and the new spline covers the time of the old one.',
 'all knot sequences, observations, errors and histories of a strategy','depends on the history of the strategy and on where observations lie relative to the knots',
 [K+'kalibr_rs_camera_calibration/ReprojectionErrorKnotSequenceUpdateStrategy.py'])
P('C127','Configuration files survive writing and reading',
 'Parameters of a camera are accepted exactly if the model is known and they have the right number, types and ranges; what is set is what is read; and the file written by the camera calibration is read back as the same chain of cameras with the same parameters and baselines, and is always written. Accepted parameters are a camera with a geometry. Parameters of a target that are wrong are reported as such.',
 'all models, parameters, chains and baselines','all combinations of models and numbers',
 [K+'kalibr_common/ConfigReader.py: CameraParameters, AslamCamera, CameraChainParameters, CalibrationTargetParameters, ImuSetParameters',K+'kalibr_camera_calibration/CameraCalibrator.py: saveChainParametersYaml'])
P('C128','The time shift between a camera and a measurement unit is found',
 'When a camera and an inertial unit, or two units, record the same motion and one clock is behind the other, the initial time shift is the difference of the clocks; if the recordings have no time in common the program says so.',
 'all recordings, lengths, rates and shifts','holds for all signals, not for a sample of them',
 [K+'kalibr_imu_camera_calibration/IccSensors.py: IccCamera.findTimeshiftCameraImuPrior, IccImu.findOrientationPrior'])
P('C129','Rotation vectors of a turning camera do not flip',
 'Before a spline is fitted to the poses of a camera, each rotation vector is replaced by one of the same rotation, such that vectors that follow each other are close if the rotations are: the angle of a camera that turns on and on goes on growing.',
 'all sequences of rotations','all lengths of sequences and all rotations',
 [K+'kalibr_imu_camera_calibration/IccSensors.py: initPoseSplineFromCamera',K+'kalibr_rs_camera_calibration/RsCalibrator.py: __ensureContinuousRotationVectors'])
P('C130','The results of a camera to inertial calibration are those of its error terms',
 'The transformation that is reported and written for a camera is the one its error terms used; baselines are the transformations between the cameras; the time shift is the one by which its images were moved; the file that is written holds all of them and the parameters that the cameras had. The pose written for a unit takes coordinates of the body to those of the unit.',
 'all numbers of cameras, transformations and shifts, all files','induction over chains of any length; quantifies over every input file',
 [K+'kalibr_imu_camera_calibration/IccSensors.py: IccCameraChain.getResultBaseline, getResultTrafoImuToCam, getResultTimeShift, addCameraChainErrorTerms, IccImu.updateImuConfig',K+'kalibr_imu_camera_calibration/IccCalibrator.py: saveCamChainParametersYaml'])
P('C131','Rolling shutter calibration pairs image points with their corners',
 'Every image point that was seen is compared with the projection of its own corner, with the weight that the given variance demands; an image whose pose is not found is left out with a warning; what is estimated depends on the camera that is calibrated and not on earlier ones.',
 'all sets of corners seen in the images, all answers of the pose solver, all sequences of calibrations','all combinations of corners seen; histories of calibrations in one process',
 [K+'kalibr_rs_camera_calibration/RsCalibrator.py: RsCalibrator.calibrate, __buildOptimizationProblem, __generateExtrinsicsInitialGuess, RsCalibratorConfiguration.validate',K+'kalibr_calibrate_rs_cameras'])
P('C132','All images inside the time of the spline are used',
 'A camera to inertial calibration uses every image of the first camera and of the others those inside its time, each with all the corners seen at the time of the image moved by the time shift; the number of images it says it has used is right; a change of the shift within the padding does not take an image out of the range of the spline.',
 'all images, shifts and paddings','all time stamps and shifts, boundaries included',
 [K+'kalibr_imu_camera_calibration/IccSensors.py: IccCamera.initPoseSplineFromCamera, addCameraErrorTerms'])
T='aslam_offline_calibration/aslam_apriltag2/'
P('C133','A printed April grid is read as the target that was configured',
 'A board is printed exactly if the spacing is allowed and there is a code for each tag. When an image shows a printed tag, the detector reports the tag with the identifier it has on the board, whichever corner the search started at, and its four corners in the order of the board; the target built with the numbers of the board stores each of them with the point at which that corner is printed.',
 'all numbers of tags, sizes, spacings, blank tags, views, grey levels and start corners','quantifies over every board, view and image; depends on the agreement of a script, a table, a decoder and a target that do not share code',
 [K+'kalibr_create_target_pdf: generateAprilTag, generateAprilBoard',T+'src/TagDetector.cc: extractTags',T+'src/Quad.cc: interpolate, interpolate01',T+'src/GrayModel.cc: compute, interpolate','aslam_cv/aslam_cameras_april/src/GridCalibrationTargetAprilgrid.cpp: computeObservation'])
P('C134','A printed checkerboard has the corners of the target that was configured',
 'The printed board has the configured number of inner corners, around each of which black and white boxes alternate; a target built with its numbers has its shape; and the board can be told from the same board turned by half a turn.',
 'all numbers of rows and columns and all sizes','quantifies over every board and every point of it',
 [K+'kalibr_create_target_pdf: generateCheckerboard','aslam_cv/aslam_cameras/src/GridCalibrationTargetCheckerboard.cpp: createGridPoints'])
P('C135','Every loop of four segments is tried as the outline of a tag, and only once',
 'The search for outlines examines exactly the closed chains of four segments in which each segment is a successor of the one before; a loop in which one segment has a greater angle than the others is examined exactly once, from that segment.',
 'all sets of segments, successor relations and angles','quantifies over every graph of segments',
 [T+'src/Quad.cc: Quad::search',T+'src/TagDetector.cc: extractTags (step seven)'])
P('C136','Outlines that wind the wrong way, cross themselves or are degenerate are refused',
 'In general position the winding test accepts exactly the quadrilaterals that bend to the wrong side at no more than one corner: all convex outlines with the right sense of rotation, none with the other and none that cross themselves. The corners of an accepted outline lie on the segments that meet there, no side or diagonal is shorter than six pixels and no side more than 32 times as long as another. Whether an outline is accepted does not depend on where in the image it is.',
 'all segments and all real positions of the corners','quantifies over all quadrilaterals; the test is a sum of four wrapped angles',
 [T+'src/Quad.cc: Quad::search',T+'src/GLine2D.cc: intersectionWith',T+'include/aslam_apriltag2/MathUtil.h: mod2pi'])
P('C137','The spatial index neither loses nor repeats segments',
 'A search in the table of positions ends; it delivers each object of the visited cells once, every object added in the rectangle within range of the position, and nothing further than one cell beyond the range. The successors of a segment hence contain no segment twice and every segment that starts near its end and passes the tests.',
 'all histories of insertions, positions, ranges and sizes of the table','quantifies over all insertions and queries; truncation towards zero and clamping at the border',
 [T+'include/aslam_apriltag2/Gridder.h: Gridder, Iterator',T+'src/TagDetector.cc: extractTags (step six)'])
P('C138','Each tag in the image is reported once, by its best detection',
 'Of several detections of the same identifier that overlap, exactly one is reported; it has the smallest number of wrong bits and, among those, the longest perimeter. Nothing is reported that was not detected.',
 'all lists of detections','quantifies over all lists of detections in every order',
 [T+'src/TagDetector.cc: extractTags (step nine)',T+'src/TagDetection.cc: overlapsTooMuch'])
P('C139','The segment fitted to the pixels of an edge is the best one and points the right way',
 'The line fitted to weighted pixels has the least weighted sum of squared perpendicular distances of all lines; the segment reaches exactly from the first to the last foot of the pixels on it; its direction leaves the greater part of the gradient on one and the same side.',
 'all lists of weighted points and gradients','quantifies over all point sets and all competing lines',
 [T+'src/GLine2D.cc: lsqFitXYW, getLineCoordinate, getPointOfCoordinate',T+'src/GLineSegment2D.cc: lsqFitXYW',T+'src/TagDetector.cc: extractTags (step five)'])
P('C140','Smoothing the image does not distort it',
 'Before gradients are taken, each pixel of the image is replaced by the weighted mean of its neighbours in the row and then in the column, values beyond the border being those of the border; the weights are not negative, symmetric and add up to one, so the result stays within the range of the image.',
 'all images at least as large as the kernel, all kernels, all pixels','quantifies over all images and all pixels; the error shows only in the first columns of the lower rows',
 [T+'src/Gaussian.cc: makeGaussianFilter, convolveSymmetricCentered',T+'src/FloatImage.cc: filterFactoredCentered'])
P('C141','Pixels are grouped into one edge only if they belong together',
 'Two pixels get into one group only along a chain of touching pixels that have a gradient of at least the threshold and directions within thirty degrees of each other; the range of directions and magnitudes kept for a group is that of its pixels; two similar neighbours stay apart only if their groups are large; this holds in whatever order the pairs are treated.',
 'all images, all orders of the pairs','quantifies over all images and all orders of merging; directions are periodic',
 [T+'src/Edge.cc: edgeCost, calcEdges, mergeEdges',T+'src/TagDetector.cc: extractTags (steps two and three)',T+'include/aslam_apriltag2/UnionFindSimple.h: UnionFindSimple'])
P('C142','The iterative solver solves the system it is given to the requested accuracy',
 'For a symmetric positive definite sparse block matrix the conjugate gradient solver ends after at most as many iterations as there are unknowns with a remainder, measured with the diagonal blocks, of at most the tolerance times that of the right hand side; with tolerance zero the solution is exact; the reported residual belongs to the returned solution; a call stopped early still returns a point with a lower value of the quadratic function than zero; the solver can be used again for the same matrix with new numbers.',
 'all sizes, block layouts, positive definite matrices, right hand sides, tolerances and histories of calls','quantifies over all matrices; the termination after n steps is an induction over conjugate directions; what one call leaves behind changes the next',
 ['aslam_optimizer/aslam_sparse_block_matrix/include/aslam_sparse_block_matrix/linear_solver_pcg.h: LinearSolverPCG','aslam_optimizer/aslam_sparse_block_matrix/include/aslam_sparse_block_matrix/implementation/linear_solver_pcg.hpp: solve, mult, multDiag'])
P('C143','The starting point of the camera calibration is the truth when the data are exact, and survives a minority of bad views',
 'The initial baseline of two cameras is the component-wise median over the views that both see: if more than half of them yield the same rotation and translation, that is the result. When the single view poses and image points are exact, each problem (one camera, two cameras, all cameras) starts at the true poses and there every error term compares a point with itself. Each corner seen by each camera gives exactly one error term, and every design variable a term depends on is in the problem exactly once. A failed optimisation reports failure and returns the starting baseline.',
 'all lists of views, observations, camera counts and poses','quantifies over all sets of views and all bad minorities; rotation vectors jump at half turns',
 [K+'kalibr_camera_calibration/CameraIntializers.py: stereoCalibrate, calibrateIntrinsics, solveFullBatch'])

P('C144','Solving the linear system gives the damped Gauss-Newton step of the system that was built',
 'After initialisation of a linear system solver, in whatever order errors are evaluated, systems built, conditioners set and systems solved, a call of the solver returns normally. The step minimises |J x - e|^2 + |c x|^2, where J and e are Jacobian and error of the system built last (also if the error has been evaluated since, at a step that was rejected) and c is the conditioner set last, or none if none was asked for; and a step is returned whenever it is determined.',
 'all problems, thread orders, histories of calls, conditioners','quantifies over all histories; a stale factorisation, a diagonal left in the matrix or an error vector of another state shows only in some',
 ['aslam_optimizer/aslam_backend/src/SparseCholeskyLinearSystemSolver.cpp','aslam_optimizer/aslam_backend/src/SparseQrLinearSystemSolver.cpp','aslam_optimizer/aslam_backend/src/DenseQrLinearSystemSolver.cpp','aslam_optimizer/aslam_backend/src/LinearSystemSolver.cpp','aslam_optimizer/aslam_backend/include/aslam_backend/backend/implementation/Cholmod.hpp'])

P('C145','Operations on uncertain transformations, points and vectors carry the covariance over to first order',
 'The product and inverse of uncertain transformations, their action on homogeneous points, sums and differences of points, conversion to Euclidean points, normalisation, and the arithmetic of uncertain vectors and numbers return as covariance that of the linearised result when the operands are disturbed independently with their covariances. The covariance stays symmetric and positive semidefinite, products are associative, inverting twice and converting to the form of the optimizer update and back change nothing, and Jacobians of points are the derivatives along the update.',
 'all transformations, points, vectors, dimensions, covariances and disturbances','quantifies over all poses and covariances; a wrong sign or a missing scale shows only for correlated or scaled inputs',
 ['Schweizer-Messer/sm_kinematics/src/UncertainTransformation.cpp','Schweizer-Messer/sm_kinematics/src/UncertainHomogeneousPoint.cpp','Schweizer-Messer/sm_kinematics/src/HomogeneousPoint.cpp','Schweizer-Messer/sm_kinematics/src/homogeneous_coordinates.cpp','Schweizer-Messer/sm_kinematics/include/sm_kinematics/implementation/UncertainVector.hpp','Schweizer-Messer/sm_kinematics/src/Transformation.cpp: operator*(UncertainTransformation), operator*(UncertainHomogeneousPoint), rotate(UncertainVector3)'])

P('C146','A normal distribution is the one of its mean and covariance',
 'After any calls of the setters the members of a normal distribution agree with the last mean and the last accepted variance. Its density is that of the normal distribution and integrates to one, also in several dimensions; the cumulative distribution is the integral of the density; the divergence of two distributions is the expected logarithm of the quotient of the densities, never negative and zero only for equal ones; a sample is the mean plus a square root of the covariance times the draw. A covariance that is not positive definite is refused, and a refused one changes nothing.',
 'all means, variances, covariances, dimensions, arguments and sequences of setter calls','quantifies over real parameters and dimensions, and integrals of densities are not observable in a test',
 [I+'src/statistics/NormalDistribution1v.cpp',I+'include/aslam_incremental_calibration/statistics/NormalDistributionMv.tpp'])
P('C147','The maximum likelihood estimators return the most likely normal distribution',
 'After any sequence of adding points, one by one, in groups or with weights, and of resets, the estimator holds the number of points since the last reset, and its mean and variance are those for which the sample, every point counted with its weight, is most likely among all normal distributions. How points are grouped into calls does not matter. The same holds for vectors.',
 'all histories of calls, all points, weights and dimensions; all competing distributions','quantifies over all histories and over all competing distributions',
 [I+'src/statistics/EstimatorMLNormal1v.cpp',I+'include/aslam_incremental_calibration/statistics/EstimatorMLNormalMv.tpp'])
P('C148','A uniform distribution is the one of its support',
 'A support is refused exactly when a lower end is not below its upper end. After any calls of the setters the density, for integers the probability, is constant on the last accepted support, zero elsewhere, and integrates or sums to one. The mean, median, variance and covariance reported are those of the density. A sample lies in the support, every point of the support is a sample, and samples come up as often as the density says.',
 'all supports, dimensions, arguments, draws and sequences of setter calls','quantifies over all supports and draws; a wrong mean is not seen with supports that begin at zero',
 [I+'include/aslam_incremental_calibration/statistics/UniformDistribution1v.tpp',I+'include/aslam_incremental_calibration/statistics/UniformDistributionMv.tpp',I+'include/aslam_incremental_calibration/statistics/Randomizer.tpp: sampleUniform'])
P('C149','A gamma or chi square distribution is the one of its shape and rate',
 'A shape or rate that is not positive is refused. After any calls of the setters the density is that of the gamma distribution of the last accepted shape and rate, it integrates to one, the mean and the variance reported are its mean and variance, the mode is where the density is largest, the cumulative distribution is its integral, and the divergence is the expected logarithm of the quotient of the densities. A chi square distribution of k degrees has mean k and variance 2 k. The logarithms of the factorial and of the gamma function, also in several dimensions, are what they say.',
 'all shapes, rates, degrees, arguments, dimensions and sequences of setter calls','quantifies over real parameters; a divergence with a wrong argument agrees with the right one for equal shapes',
 [I+'include/aslam_incremental_calibration/statistics/GammaDistribution.tpp',I+'src/statistics/ChiSquareDistribution.cpp',I+'include/aslam_incremental_calibration/functions/LogGammaFunction.tpp',I+'src/functions/LogGammaFunction.cpp',I+'src/functions/LogFactorialFunction.cpp',I+'src/functions/IncompleteGammaPFunction.cpp'])
P('C150','Exponential, geometric, Poisson and categorical samples have the distributions they are named after',
 'When the draws are uniform on the unit interval, an exponential sample is at most x with probability 1 - exp(-rate x), a geometric sample is k with probability (1 - p)^k p, a Poisson sample is the number of arrivals at rate one before the time given by the mean, and a categorical sample is each category with its probability. Arguments outside the domain are refused, and a category of probability zero never comes up.',
 'all parameters and all draws','quantifies over all draws; frequencies in a test only approximate probabilities',
 [I+'include/aslam_incremental_calibration/statistics/Randomizer.tpp: sampleExponential, sampleGeometric, samplePoisson, sampleCategorical'])
P('C151','A histogram counts the samples in range and its statistics are theirs to half a bin',
 'After any samples have been added to a histogram of any dimension, every bin holds the number of samples in range that belong to it, the sum of the bins is the number of samples in range, other samples change nothing, and the normalised histogram sums to one. Of a histogram of one dimension the mean is that of the samples in range to half a bin, half of the samples in range are below and half above the median to half a bin, the mode is the centre of a bin than which no other holds more, and the variance is that of the samples in range moved to the centres of their bins.',
 'all ranges, resolutions, dimensions and sequences of samples','quantifies over all samples, also on borders of bins and at the upper end',
 [I+'include/aslam_incremental_calibration/statistics/HistogramMv.tpp',I+'include/aslam_incremental_calibration/statistics/Histogram1v.tpp'])
P('C152','The Jacobian of a generic scalar expression is its derivative',
 'For any expression built from scalar design variables and constants by sums, differences, products, quotients, negation and conversion, the Jacobian blocks it adds, with or without a chain rule, are the derivative of its value along every increment of the design variables, also when a variable occurs several times. Reverting an update restores the value, and the minimal difference to the value before an update is the increment.',
 'all expressions, values, chain rules and increments','quantifies over all expression trees and all values',
 [B+'include/aslam_backend_expressions/implementation/GenericScalarExpression.hpp',B+'include/aslam_backend_expressions/implementation/GenericScalar.hpp'])
P('C153','Fixed point numbers round towards zero and are exact otherwise',
 'Sums, differences and negations of fixed point numbers are exact whenever the type can hold the result. Products, quotients and conversions from real numbers and between resolutions give the exact result with the digits below the resolution dropped. Conversion to a real number and back is the identity, and numbers compare equal exactly when their values are equal.',
 'all widths, resolutions and numbers','quantifies over all numbers, also negative ones and those at the ends of the range',
 [B+'include/aslam_backend_expressions/FixedPointNumber.hpp'])
P('C154','Arrays and matrices cross the language border unchanged',
 'An array of one or two dimensions passed from Python to a function that takes a matrix arrives with the same elements in the same places, whatever its strides (views, transposes, reversed arrays). It is refused exactly when the matrix type cannot have that size, and left to other converters when its element type is not accepted. An array of one dimension becomes a row for types with one row, and a column otherwise. A matrix returned to Python and passed back is the same matrix.',
 'all matrix types, fixed, bounded or dynamic; all sizes, strides, element types and elements','quantifies over all shapes, strides and element values',
 ['Schweizer-Messer/sm_numpy_eigen/include/sm_numpy_eigen/NumpyEigenConverter.hpp','Schweizer-Messer/sm_numpy_eigen/include/sm_numpy_eigen/copy_routines.hpp','Schweizer-Messer/sm_numpy_eigen/include/sm_numpy_eigen/type_traits.hpp'])
P('C155','Masks tell where two cameras overlap',
 'A mask set from a matrix of pixel values reads back as that matrix, and a keypoint is valid exactly if its pixel, after scaling, is not zero. The overlap of two cameras marks exactly the pixels on whose ray, at one of the given distances, there is a point that the other camera sees, in the masks of both cameras at the given scale; the ratio is the share of marked pixels. What is asked for is what the caller gets, whatever masks are passed.',
 'all cameras, transformations, distances, scales and masks passed in','quantifies over all cameras and over the sizes and sharing of the masks passed in',
 ['aslam_cv/aslam_cameras/src/ImageMask.cpp','aslam_cv/aslam_cameras/include/aslam_cameras/cameras/ImageMask.hpp: isValid','aslam_cv/aslam_imgproc/src/calculateOverlappingFov.cpp'])
P('C156','A bag extracted to files and packed again is the same bag',
 'Extracting the images of a bag to a folder and packing the folder again gives a bag with the same images at the same times to the nanosecond, none lost and none added, in order of time. The same holds for inertial measurements.',
 'all data sets, all orders in which the folder lists its files','quantifies over all time stamps and listings of the folder; the order fails only when a second gets another digit',
 [K+'kalibr_bagextractor',K+'kalibr_bagcreater'])
P('C157','Calibrations exported to other programs say the same',
 'The configuration written for OKVIS, ROVIO and MSF has, in the conventions of these programs, the transformation between camera and sensor, the camera matrix, the distortion, the size of the image, the topic and the time shift of the calibration, for every camera of a model the program knows; no file of one camera replaces that of another.',
 'all calibrations, models, transformations and topics','quantifies over all transformations and all names of topics',
 [K+'exporters/kalibr_okvis_config',K+'exporters/kalibr_rovio_config',K+'exporters/kalibr_msf_config',K+'kalibr_common/ConfigReader.py'])
P('C158','The validator shows pairs of cameras rectified',
 'The validator shows every pair of cameras of which one names the other once; the transformation between the two cameras is the one of the chain. For two pinhole cameras that are apart the rectified views show a point in the same row and at columns that differ by focal length times baseline over depth, the right way up, and the errors of the pair are shown.',
 'all camera chains, overlaps, poses, intrinsics and points','quantifies over all poses, intrinsics and points',
 [K+'kalibr_camera_validator'])
P('C159','Printed uncertainties and statistics belong to what they stand beside',
 'The uncertainty printed beside a baseline, distortion coefficient or projection parameter is the standard deviation of that parameter, for any number of cameras and any models. Printed mean and standard deviation are those of the reprojection errors of all corners that were seen.',
 'all numbers of cameras, camera models and sets of seen corners','quantifies over all numbers of cameras and all sizes of parameter blocks',
 [K+'kalibr_camera_calibration/CameraCalibrator.py: recoverCovariance, printParameters, getReprojectionErrorStatistics'])
P('C160','Nothing is missing from the report',
 'The pages of text of the report, read one after the other, are the whole text, and every plot of the report has a figure of its own, for any number of cameras and sensors.',
 'all texts, numbers of cameras and sensors','quantifies over all numbers of cameras and sensors',
 [K+'kalibr_imu_camera_calibration/IccUtil.py: generateReport',K+'kalibr_camera_calibration/CameraCalibrator.py: generateReport'])
P('C161','The command for inertial sensors takes sensors and models as given',
 'Sensors and models on the command line are paired in order, the first sensor is the reference and only it; a model that is not known or a wrong number of models ends the command with a message. The results are written to four different files in the current folder, and the results of different data are written to different files.',
 'all command lines and all paths of the data','quantifies over all strings on the command line',
 [K+'kalibr_calibrate_imu_camera'])
P('C162','A calibration is drawn as it is',
 'The cameras of a chain and the inertial sensor are drawn at their poses relative to each other, and the outline of a camera is what it sees: the corners of the outline are seen at the corners of the image.',
 'all chains, poses, intrinsics, resolutions and scales','quantifies over all poses and intrinsics',
 [K+'kalibr_visualize_calibration'])
P('C163','The measure of focus compares spectra',
 'The measure of focus is a number between minus the logarithm of the number of frequencies and zero, least exactly if all frequencies are equally strong, and does not change with the exposure, for every image.',
 'all spectra','quantifies over all images; inequality between real functions',
 [K+'kalibr_camera_focus'])

P('C164','Matrices, images and keypoints come back from an archive as they were saved',
 'A matrix of any fixed or dynamic size, an image, a transformation, point or vector with its uncertainty, a keypoint or a landmark that is saved to a text, binary or XML archive is loaded with the same sizes and values, and what was saved after it is loaded too; a matrix of a wrong fixed size is refused.',
 'all matrices, images, points, keypoints, kinds of archives and contents after them','quantifies over all values and all sizes',
 ['Schweizer-Messer/sm_eigen/include/sm_eigen/serialization.hpp','Schweizer-Messer/sm_opencv/include/sm_opencv/serialization.hpp','aslam_cv/aslam_cameras/include/aslam_cameras/Keypoint.hpp','Schweizer-Messer/sm_kinematics/include/sm_kinematics/Transformation.hpp'])
P('C165','Cameras, targets and observations come back from an archive as they were saved',
 'A camera of any model with any distortion, shutter and mask, a calibration target of any kind, an observation of a target and a detector that are saved, as they are when they are sent to other processes, are loaded as the same objects, including what is computed from the parameters and not saved; masks of older versions are loaded too.',
 'all cameras, targets, observations and detectors','quantifies over all parameters and images',
 ['aslam_cv/aslam_cameras/include/aslam_cameras/cameras/CameraGeometry.hpp','aslam_cv/aslam_cameras/include/aslam_cameras/cameras/ImageMask.hpp','aslam_cv/aslam_cameras/include/aslam_cameras/cameras/GridDetector.hpp','aslam_cv/aslam_cameras/include/aslam_cameras/cameras/GridCalibrationTargetObservation.hpp','aslam_cv/aslam_cameras_april/include/aslam_cameras_april/GridCalibrationTargetAprilgrid.hpp'])
P('C166','Property trees give back what was set last and nothing else',
 'A value that is set under a name in a namespace is the one that is got under that name, also by another namespace and name with the same path, after any number of other settings; other names keep their values; a name that does not exist or a value that cannot be read raises the documented exception and changes nothing; a child namespace is the same as the path with the name of the child; a constant tree is not changed by reading.',
 'all trees, namespaces, names, types of values and histories of settings','quantifies over all histories and all trees',
 ['Schweizer-Messer/sm_property_tree/src/PropertyTree.cpp','Schweizer-Messer/sm_property_tree/include/sm_property_tree/BoostPropertyTreeImplementation.hpp'])
P('C167','The routines for strings, identifiers and comparisons do what they are documented to do on every input',
 'Replacing of a character ends and replaces all occurrences but the ones skipped, from the front or from the back; padding reaches the length; every variable in a text is replaced once and the rest stays; identifiers are totally ordered, equal exactly if their bytes are, and read back from their text, and texts that are none are refused; for every positive precision exactly one of equal, greater and less holds.',
 'all strings, identifiers, numbers and precisions','quantifies over all strings and numbers, and termination',
 ['Schweizer-Messer/sm_common/include/sm_common/string_routines.hpp','Schweizer-Messer/sm_common/include/sm_common/hash_id.hpp','Schweizer-Messer/sm_common/include/sm_common/numerical_comparisons.hpp'])
P('C168','Integers in portable archives are read back on every machine',
 'An integer of any type that is saved in a portable archive is loaded as the same integer, for either order of bytes in the file and on machines with either order, and an integer that does not fit in the type it is loaded into is refused.',
 'all integer types, values, orders of bytes and machines','quantifies over all values and over machines that are not at hand',
 ['Schweizer-Messer/sm_boost/src/portable_binary_oarchive.cpp','Schweizer-Messer/sm_boost/src/portable_binary_iarchive.cpp'])
P('C169','Generic matrix and quaternion expressions have the value and the Jacobians of the formula they stand for',
 'For every expression that is built from matrices, vectors and quaternions, the Jacobians that it collects, with and without a matrix for the chain rule, are the derivatives of its value with respect to the steps of its design variables; its value depends only on the design variables it names, and products, inverses, rotations and exponential maps of quaternions are those of the algebra, in all four modes.',
 'all expressions of any depth, all values of the design variables, all directions of steps, all modes and geometries','quantifies over all expression trees and over the reals',
 ['aslam_optimizer/aslam_backend_expressions/include/aslam_backend_expressions/Differential.hpp','aslam_optimizer/aslam_backend_expressions/include/aslam_backend_expressions/implementation/GenericMatrixExpression.hpp','aslam_optimizer/aslam_backend_expressions/include/aslam_backend_expressions/implementation/QuaternionExpression.hpp','aslam_optimizer/aslam_backend_expressions/include/aslam_backend_expressions/DesignVariableUnitQuaternion.hpp'])

P('C170','The transformation fitted to matched points is the best one',
 'For every set of matched points, the transformation of threePointSvd is a rigid one, never a reflection, and no other rigid transformation has a smaller sum of squared distances; the rotation of qMethod is a proper one and no other has a smaller weighted sum. If the points are exactly moved by a transformation and not all on one line, that transformation is returned.',
 'all numbers of points, all points, all weights, all rigid transformations','quantifies over the reals and over all competing transformations',
 ['Schweizer-Messer/sm_kinematics/src/three_point_methods.cpp'])
P('C171','Transformations of points are rigid, and the inverse undoes them',
 'A transformation that is set from a translation and three angles turns points by roll, then pitch, then yaw, and then moves them; its inverse undoes it and is undone by it; inverting twice gives back the transformation, however the object was made and whatever was called on it before.',
 'all translations, angles, points and numbers of inversions','quantifies over the reals and over histories of calls',
 ['aslam_incremental_calibration/aslam_incremental_calibration/include/aslam_incremental_calibration/geometry/Transformation3d.tpp','aslam_incremental_calibration/aslam_incremental_calibration/include/aslam_incremental_calibration/geometry/Transformation2d.tpp'])
P('C172','The mutex excludes, and no thread that waits is forgotten',
 'For every schedule of any number of threads, with spurious wake-ups and timeouts: at most one thread holds the mutex, and once unless it is recursive; only the holder can unlock it; isLocked and getNumLocks tell the truth; a thread that waits while the mutex is free has been signalled or another has; Condition::wait returns with the mutex held as before.',
 'all schedules, numbers of threads, waiting times, choices of the thread that is woken','quantifies over all interleavings',
 ['aslam_incremental_calibration/aslam_incremental_calibration/src/base/Mutex.cpp','aslam_incremental_calibration/aslam_incremental_calibration/src/base/Condition.cpp'])
P('C173','An undistorted image is the one the ideal camera would have taken',
 'For every camera with a distortion, the map of the undistorter sends each pixel of the new image to the pixel at which the camera sees the same ray, to within a sixty-fourth of a pixel; the new camera matrix shows all of the grid of sample points if alpha is one and only points of the old image if it is zero; a camera without distortion is left as it is, the mask follows the image, and a factory name gives the undistorter it names.',
 'all cameras, distortions, scales, values of alpha, pixels and names','quantifies over the reals, over all cameras and over all pixels',
 ['aslam_cv/aslam_imgproc/include/aslam_imgproc/implementation/aslamcv_helper.hpp','aslam_cv/aslam_imgproc/include/aslam_imgproc/implementation/PinholeUndistorter.hpp','aslam_cv/aslam_imgproc/include/aslam_imgproc/implementation/OmniUndistorter.hpp','aslam_cv/aslam_imgproc/include/aslam_imgproc/implementation/NullUndistorter.hpp','aslam_cv/aslam_imgproc/src/UndistorterBase.cpp'])
P('C174','The overlap of two cameras counts the pixels that both can see',
 'For every pair of cameras, the mask of each camera is set at exactly the pixels whose ray, at one of the sample distances, meets a point the other camera sees, and the ratio of each is the share of those pixels.',
 'all cameras, transformations, sample distances, scales and masks handed in','quantifies over the reals, over all cameras and over all pixels',
 ['aslam_cv/aslam_imgproc/src/calculateOverlappingFov.cpp','aslam_cv/aslam_imgproc/include/aslam_imgproc/implementation/calculateOverlappingFov.hpp'])
P('C175','A thread object runs once at a time, and an interrupt ends it',
 'For every schedule of callers and threads: an object is run by one thread at a time; process() is called at least once in a run, by one call at a time, and after an interrupt not again but for the first call; the run then ends, its final state tells whether it was interrupted, isBusy and exists are true from start to end, getNumCycles counts the calls; a caller that waits for the end is told that the run is over only when it is; and a failed start leaves the object as it was.',
 'all schedules, numbers of callers, cycle times, spurious wake-ups, failures to create a thread','quantifies over all interleavings',
 ['aslam_incremental_calibration/aslam_incremental_calibration/src/base/Thread.cpp','aslam_incremental_calibration/aslam_incremental_calibration/src/base/Threads.cpp','aslam_incremental_calibration/aslam_incremental_calibration/src/base/Condition.cpp'])
P('C176','Time stamps convert to the system type, and timers measure the time between start and stop',
 'For every number of seconds the conversion to timespec gives a valid value that is at most a nanosecond earlier; stop returns when the period is over and adds the time since the start; a timer that is started and stopped again and again measures the sum, or the last time if it is reset.',
 'all times, periods and sequences of starts and stops','quantifies over the reals and over histories',
 ['aslam_incremental_calibration/aslam_incremental_calibration/src/base/Timestamp.cpp','aslam_incremental_calibration/aslam_incremental_calibration/src/base/Timer.cpp'])
P('C177','Every logging statement prints exactly when the level and the streams say so, and no call blocks for ever',
 'For every number of threads that set the level, enable and disable streams and reach logging statements, in every order of their accesses: whenever no thread is inside such a call, the switch of every statement reached so far is on exactly if its level reaches the threshold and its stream, if named, is enabled; and every call comes back.',
 'all numbers of threads, calls, statements, streams, levels and schedules','quantifies over all interleavings and histories',
 ['Schweizer-Messer/sm_logging/src/LoggingGlobals.cpp','Schweizer-Messer/sm_logging/include/sm_logging/logging/console.hpp','Schweizer-Messer/sm_logging/include/sm_logging/logging/LogLocation.hpp'])
P('C178','Log messages arrive whole, once, in order, and in the format asked for',
 'For every message and history of messages the logger gets the whole text; every message a thread asks for reaches the logger once, in the order of its calls, one thread at a time, and a message printed by the logger itself is thrown out instead of blocking; a format is split without loss into texts and fields, every field is replaced by its value and the rest is printed as it is.',
 'all messages, histories, formats, events, numbers of threads and schedules','quantifies over all texts, histories and interleavings',
 ['Schweizer-Messer/sm_logging/src/LoggingGlobals.cpp','Schweizer-Messer/sm_logging/src/Formatter.cpp','Schweizer-Messer/sm_logging/include/sm_logging/logging/Tokens.hpp','Schweizer-Messer/sm_logging/src/Logger.cpp'])
P('C179','A depth camera maps points to keypoints, derivatives and back',
 'For every depth camera and point in front of it, the keypoint is where the line to the point, bent by the distortion, meets the image, with the inverse depth as third coordinate; the overload with derivatives gives the same keypoint and its derivatives; back projection gives the point back; homogeneous coordinates of the same point give the same keypoint; and parameters survive updates, setting and archives.',
 'all cameras, points, keypoints, scales and histories of changes','quantifies over the reals and over histories',
 ['aslam_cv/aslam_cameras/include/aslam_cameras/cameras/DepthProjection.hpp','aslam_cv/aslam_cameras/include/aslam_cameras/cameras/implementation/DepthProjection.hpp'])
P('C180','A linear solver that is used again solves the matrix it is given',
 'For every history of solutions, failures and announcements of a new pattern to the sparse Cholesky, CSparse and QR solvers, each solution factorizes exactly the matrix it is given, with a symbolic factorization of its pattern, and no buffer kept between calls is read or written outside what it holds; the ordering of the blocks becomes an ordering of all columns, none missing and none twice; and the structure of blocks has room for what was asked for and loses no memory.',
 'all histories of calls, matrices, sizes of blocks and orderings','quantifies over histories of calls with reused buffers',
 ['aslam_optimizer/aslam_sparse_block_matrix/include/aslam_sparse_block_matrix/linear_solver_cholmod.h','aslam_optimizer/aslam_sparse_block_matrix/include/aslam_sparse_block_matrix/linear_solver_csparse.h','aslam_optimizer/aslam_sparse_block_matrix/include/aslam_sparse_block_matrix/linear_solver_spqr.h','aslam_optimizer/aslam_sparse_block_matrix/src/matrix_structure.cpp: MatrixStructure::alloc, free, write'])

P('C181','Rolling shutter observations are weighted by the covariance of their error',
 'For every keypoint with a positive definite covariance, every motion of the image that does not keep up with the shutter and whatever was evaluated before, the error is the keypoint less the projection and its weight is the inverse of the covariance of the keypoint mapped through the derivative of the error by the measured keypoint, which moves the time of the observation by the line delay; without a line delay or at rest it is the plain reprojection error. The matrix square root used for it, times its transpose, is the matrix.',
 'all keypoints, covariances, projections, motions, line delays and histories of evaluations','quantifies over all real covariances and all differentiable motions',
 ['aslam_cv/aslam_cv_error_terms/include/aslam_cv_error_terms/implementation/CovarianceReprojectionError.hpp: covarianceMap, evaluateErrorImplementation','Schweizer-Messer/sm_eigen/include/sm_eigen/matrix_sqrt.hpp: computeMatrixSqrt','aslam_optimizer/aslam_backend/include/aslam_backend/backend/implementation/ErrorTerm.hpp: setSqrtInvR','aslam_offline_calibration/kalibr/python/kalibr_rs_camera_calibration/RsCalibrator.py'])

P('C182','The target that is printed is the one the detector looks for',
 'For every size of board, size and spacing of tags and identifiers to skip for which the generator prints a page, every tag on it and every view of the page, whichever corner the quadrilateral found in the image begins with: the detector reads the identifier that the target has at this place, and stores the corners of the tag under the indices of the points of the target which lie, in centimetres, where the corners were printed. The colours of a printed checkerboard alternate around exactly the points of the target. A page is printed for every board the family has enough codes for.',
 'all boards, tags, skipped identifiers, views of the page and orders of the corners','quantifies over all boards and all real sizes, spacings and views',
 ['aslam_offline_calibration/kalibr/python/kalibr_create_target_pdf: generateAprilTag, generateAprilBoard, generateCheckerboard','aslam_offline_calibration/aslam_apriltag2/src/TagDetector.cc: TagDetector::extractTags (step eight)','aslam_offline_calibration/aslam_apriltag2/src/Quad.cc: Quad::interpolate01','aslam_cv/aslam_cameras_april/src/GridCalibrationTargetAprilgrid.cpp: createGridPoints, computeObservation','aslam_cv/aslam_cameras/src/GridCalibrationTargetCheckerboard.cpp: createGridPoints'])

P('C183','Random numbers repeat after a seed and stay within their bounds',
 'After seeding with the same number, the same calls return the same values, whatever was drawn before and however the draws are mixed. Uniform numbers are at least zero and less than one; numbers between bounds include the lower and exclude the upper one; integers between bounds are among the integers from the lower to below the upper one, and each of them can be drawn. Different seeds are different.',
 'all engines of 32 bits, histories of calls, seeds and bounds','quantifies over histories of draws before the seed and over all words of the engine',
 ['Schweizer-Messer/sm_random/src/random.cpp: Random::seed, normal, uniform, randLU, randLUi'])

P('C184','The simple optimization problem deletes what it owns exactly once',
 'After any program that adds design variables and error terms by pointer, owned or not, and by shared pointer, drops shared pointers and clears the problem: nothing is deleted twice, nothing that the problem does not own is deleted by it, nothing still owned is deleted, and clearing or destroying the problem deletes once each object it owns and the caller does not, error terms before design variables. No design variable is in the problem twice; adding it again raises and changes nothing. An adapter undoes the last update on revert.',
 'all programs that use the problem, its objects and shared pointers; all histories of edits of an adapter','quantifies over histories of calls and shared ownership',
 ['aslam_optimizer/aslam_backend/src/SimpleOptimizationProblem.cpp','aslam_optimizer/aslam_backend/include/aslam_backend/backend/implementation/DesignVariableAdapter.hpp'])

P('C185','The dense solver solves the same system as the sparse ones',
 'For every symmetric block matrix without kernel, every division into blocks, and whether all blocks or only those on and above the diagonal are stored, the dense solver returns the solution of the symmetric system; what is stored below the diagonal does not matter. It reports failure if there is no solution.',
 'all block matrices, layouts and right-hand sides','quantifies over all block structures and real matrices',
 ['aslam_optimizer/aslam_sparse_block_matrix/include/aslam_sparse_block_matrix/linear_solver_dense.h: LinearSolverDense::solve'])

P('C186','Eliminating blocks does not change the solution',
 'For every block matrix with any pattern of stored blocks, every right-hand side and every damping, if the eliminated blocks are symmetric, regular with the damping and not coupled with each other: solving the reduced system that is formed, in whatever the output held before, and substituting back gives exactly the solutions of the full damped symmetric system.',
 'all numbers and sizes of blocks, patterns, matrices, right-hand sides, dampings and earlier contents of the outputs','quantifies over all block structures and all real matrices',
 ['aslam_optimizer/aslam_backend/src/sparse_matrix_functions.cpp: applySchurComplement, buildDsi','aslam_optimizer/aslam_sparse_block_matrix/include/aslam_sparse_block_matrix/implementation/sparse_block_matrix.hpp: SparseBlockMatrix::sliceInto','aslam_optimizer/aslam_backend/src/Optimizer.cpp: applyStateUpdate'])

P('C187','The first optimizer keeps a step exactly if it lowers the objective',
 'In Levenberg-Marquardt mode, whatever the problem, every step is computed at the current state with a positive damping; it is kept exactly if it lowers the objective, and otherwise the state stays and the damping at least doubles. The result is reached by as many improvements as there are iterations that did not fail, and the reported final objective is the one of the result. The optimizer stops at the limit of the iterations or when the last change of the state or of the objective is small, and not before. The active variables get consecutive indices, those that are eliminated last, and it raises if all of them are. The initial damping, if estimated, is proportional to the largest entry of the diagonal.',
 'all problems, solvers, options, starts and numbers of iterations; all lists of variables','quantifies over all objectives, solvers and histories of iterations',
 ['aslam_optimizer/aslam_backend/src/Optimizer.cpp: optimize, initialize, setInitialLambda, getLmRho, revertLastStateUpdate','aslam_optimizer/aslam_backend/include/aslam_backend/backend/OptimizerOptions.hpp'])

P('C188','The dog leg of the first optimizer stays in its region and ends',
 'Whatever the problem without eliminated variables, every step is computed from the system of the current state and is at most as long as the radius of the region. It is kept exactly if it lowers the objective; otherwise the state stays and the radius at least halves. With a positive limit for the change of the state the optimizer ends. The result is reached by improvements, and the reported final objective is the one of the result. The steepest descent step is the best one along the gradient.',
 'all problems, systems, starts, options and numbers of iterations','quantifies over all objectives, systems and histories of steps, in vector spaces of any dimension',
 ['aslam_optimizer/aslam_backend/src/Optimizer.cpp: optimizeDogLeg'])

P('C189','Numerical Jacobians are differences at the given point',
 'For every function and point, every entry of an estimated Jacobian is a difference quotient along one coordinate at the given point. It is exact for functions that are quadratic along the coordinate, and with a third derivative of at most M the error is at most M / 6 times the square of the step, which is eps times the larger of one and the size of the coordinate. Estimating leaves the point, the parameters of the camera and the variables and the error of an error term as they were.',
 'all functions, dimensions, points and steps','quantifies over all real functions and all dimensions',
 ['Schweizer-Messer/sm_eigen/include/sm_eigen/NumericalDiff.hpp: NumericalDiff::estimateJacobian','aslam_cv/aslam_cameras/include/aslam_cameras/cameras/FiniteDifferences.hpp: ASLAM_CAMERAS_ESTIMATE_JACOBIAN, ASLAM_CAMERAS_ESTIMATE_INTRINSIC_JACOBIAN, ASLAM_CAMERAS_ESTIMATE_DISTORTION_JACOBIAN','aslam_optimizer/aslam_backend/src/ErrorTerm.cpp: ErrorTerm::evaluateJacobiansFiniteDifference'])

P('C190','The type of a camera in a configuration creates this camera',
 'For every string: it creates a camera exactly if it is the name composed of mask, distortion, projection and shutter of a supported camera, and then it creates this camera; every other string raises. Different supported cameras have different names.',
 'all strings and all combinations of projection, distortion, shutter and mask','quantifies over all strings',
 ['aslam_cv/aslam_cameras/src/CameraGeometryBase.cpp: CameraGeometryBase::create'])
P('C191','The file of a sparse matrix holds the matrix',
 'Writing a sparse matrix in compressed columns to a text file produces a file whose header states the size of the matrix and the number of the lines, and whose lines, read as row, column (both counted from one) and value, add up to the matrix; if only the upper half is stored and the symmetric matrix is asked for, they add up to that half and its mirror image, with the diagonal written once. If every place is stored once, every place is on one line, and the lines are in the order of the columns and then of the rows. The name in the header is the one of the file up to its last dot.',
 'every matrix in compressed columns of any size, every result the standard sort may leave, symmetric or not, and every file name',
 'A test compares the files of some matrices; an entry of the diagonal written twice or a sort that mixes up rows and columns shows only on the matrices that have it.',
 ['aslam_optimizer/aslam_sparse_block_matrix/include/aslam_sparse_block_matrix/implementation/sparse_helper.h: writeCCSMatrix',
  'aslam_optimizer/aslam_sparse_block_matrix/include/aslam_sparse_block_matrix/sparse_helper.h: TripletEntry, TripletColSort'])

P('C192','Identifiers from a counter are different and set',
 'A counter that starts at zero gives identifiers that are all different, increasing and set, up to 2^64 - 1 of them; the next one is not set, and then it starts again at zero. The six comparisons are those of one linear order, in which an identifier that is not set comes last. The postincrement gives the value before, the preincrement the one after, and both leave the same object. An identifier is not set exactly if it was made by the default constructor, cleared, or holds the largest number.',
 'all identifiers and all numbers of increments','quantifies over all numbers of 64 bits and all histories of a counter',
 ['Schweizer-Messer/sm_common/include/sm_common/Id.hpp: sm::Id, SM_DEFINE_ID'])

P('C193','A vector variable goes one step back',
 'After any history of a vector design variable, one or more reverts bring back exactly the value before the last change, be it an update, a value that was set or parameters; further reverts do nothing more. An update adds the vector, and parameters of another shape raise and leave the variable as it was.',
 'all vectors, sizes and histories of calls','quantifies over all histories of updates, sets and reverts',
 ['aslam_incremental_calibration/aslam_incremental_calibration/include/aslam_incremental_calibration/data-structures/VectorDesignVariable.tpp: VectorDesignVariable'])

P('C194','The solutions of a quadratic equation are its solutions',
 'For all coefficients with a quadratic term, the two results of the solver of quadratic equations are exactly the real solutions, with the sum and the product the coefficients demand, and it raises exactly if there is no real solution. Without a quadratic term the second result is the solution of the linear equation. The sign of a number times its size is the number.',
 'all real coefficients and numbers','quantifies over all real coefficients',
 ['Schweizer-Messer/sm_common/include/sm_common/maths.hpp: solveQuadratic, sgn'])

P('C195','The covariance recovered from a triangular factor is the inverse',
 'For every upper triangular matrix R without a zero on its diagonal and every range of columns, the covariance block recovered from R is the block of this range of the inverse of the product of the transposed of R and R. A range that is not within the matrix raises. The sum of the logarithms of the diagonal is the logarithm of the size of its product, without tiny elements, so that for the whole matrix twice the sum is the logarithm of the determinant of the product of the transposed of R and R.',
 'all sizes, all upper triangular matrices and all ranges of columns','quantifies over all real triangular matrices of any size; a wrong bound in one of the nested loops shows only for sizes and entries no test has',
 ['aslam_incremental_calibration/aslam_incremental_calibration/include/aslam_incremental_calibration/algorithms/matrixOperations.tpp: computeCovariance, computeSumLogDiagR, checkColumnIndices'])

P('C196','A singleton is one object',
 'At any time there is at most one object of a singleton class. Asking for the instance gives this object, makes it if there is none, and gives the same one until it is destroyed; making another one raises and leaves it as it is. Whether it exists is reported correctly. This also holds for any number of threads that ask for the instance, under every schedule.',
 'all programs that ask for, make and destroy the object; all numbers of threads and all schedules','quantifies over all programs and all schedules',
 ['aslam_incremental_calibration/aslam_incremental_calibration/include/aslam_incremental_calibration/base/Singleton.tpp: Singleton'])
P('C197','A quadrilateral is projected with the homography of its own corners',
 'After any history of calls the homography of a quadrilateral is that of the corners given last (or the matrix written into it since): keeping it between calls cannot be seen. With any optical centre it takes each corner of the tag to its corner in the image, and a detection whose tag was read turned by k quarter turns takes corner j of the tag to corner j + k of the quadrilateral and reports the direction of the lower edge as its orientation. Corners for which there is no homography are rejected.',
 'all histories of calls, all corners, optical centres and numbers of turns, all results of OpenCV','quantifies over all histories and all quadrilaterals',
 ['aslam_offline_calibration/aslam_apriltag2/src/Homography33.cc: setCorrespondences, compute, getH, project','aslam_offline_calibration/aslam_apriltag2/src/TagDetection.cc: interpolate, getXYOrientation','aslam_offline_calibration/aslam_apriltag2/src/TagDetector.cc: extractTags'])
P('C198','A matrix of unknowns changes only where its pattern allows',
 'A matrix design variable has as many unknowns as its pattern has ones. An update of that size adds its elements, in order, to these entries going down the columns, changes no other entry and reads nothing beyond the update. The Jacobian it gives is exact: whatever is linear in the entries changes by the Jacobian times the update. Reverting undoes the last update or assignment.',
 'all matrices, patterns, updates and derivatives','quantifies over all matrices, patterns and updates',
 ['aslam_optimizer/aslam_backend_expressions/src/MatrixTransformation.cpp: MatrixTransformation, updateImplementation, revertUpdateImplementation, evaluateJacobiansImplementation'])
P('C199','A copy of a landmark is independent of the original',
 'An assigned landmark looks like the one it was copied from, and nothing done to one of them afterwards is seen in the other, descriptor included. Swapping exchanges two landmarks, setting a part leaves the other parts, and a landmark made from a keypoint has the point (transformed if asked), descriptor and number of that keypoint and the frame given. A keypoint without a point is rejected and the landmark is left as it was.',
 'all landmarks, keypoints, transformations and programs','quantifies over all programs after the copy',
 ['aslam_cv/aslam_cameras/src/Landmark.cpp: Landmark, operator=, swap, fromKeypoint, fromTransformedKeypoint'])
P('C200','All kinds of matrices take over the same entries of a dense matrix',
 'Whether a dense, a compressed column or a block matrix is filled from a dense matrix with a tolerance, it afterwards holds exactly the entries whose absolute value is above the tolerance, and zeros elsewhere, whatever it held before. A block matrix rejects a matrix of another size and is left as it was.',
 'all matrices, sizes, block layouts, earlier contents and tolerances','quantifies over all matrices, layouts and tolerances',
 ['aslam_optimizer/aslam_backend/src/DenseMatrix.cpp: fromDenseTolerance','aslam_optimizer/aslam_backend/src/SparseBlockMatrixWrapper.cpp: fromDenseTolerance','aslam_optimizer/aslam_backend/include/aslam_backend/backend/implementation/CompressedColumnMatrix.hpp: fromDenseTolerance'])
