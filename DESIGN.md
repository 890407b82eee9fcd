# A Lean 4 model of kalibr: design

## Trusted base

* Lean 4.33.0's kernel. Nothing else decides acceptance: there is no `native_decide`, no `bv_decide`,
  no `sorry` or `admit`, no axiom of our own, no `implemented_by`, `extern` or `unsafe`.
* Axioms: the only ones any theorem depends on are `propext`, `Classical.choice` and `Quot.sound`.
  Elaborating `lean/Verif/Audit.lean`, which is part of the build, fails if a theorem of the
  development depends on any other. `AXIOMS.md` lists the axioms of every property theorem.
* The reading of the C++ source into Lean definitions. This is not machine checked. Every definition
  cites the file and lines it models; simplifications are stated in the same comment.
* `double` and `float` are exact numbers: ℝ, ℚ or an arbitrary linearly ordered field. Rounding,
  overflow to infinity and NaN are not modelled, except where the code divides zero by zero, takes
  the root of a negative number or inverts a singular matrix and the model says so with an outcome of
  its own (`none`, or an explicit infinity in the trust region ratio).
* Fixed-width integers have explicit ranges where the property depends on them: wrap-around for
  unsigned types and an explicit `ub` outcome for signed overflow. Where a model treats an index or a
  size as unbounded its header says so.
* C++ containers: `std::vector` is a `List` or a function on an index range, `std::map` a sorted
  association list or a finite map, a pointer an identity (a natural number). Reading or writing out of
  range and using a null or dangling pointer is the outcome `ub`.
* Memory model: threads interleave at the granularity stated in the header of the model
  (`JobQueue`, `Threads`); sequential consistency is assumed.

## Conventions

* `Verif/<Area>/Model.lean` (and other files without theorems named `C..`): the model, function by
  function, with citations.
* `Verif/<Area>/Spec.lean`, or a section `Specification` at the head of a property file: the small
  independent specification.
* `Verif/<Area>/Lemmas.lean`: helper lemmas.
* `Verif/<Area>/*Props.lean`, `Props.lean`: the property theorems `C<nn>_...`, each with an `example`
  beside it showing that a concrete, non-trivial case meets its hypotheses.
* Outcomes: `Out α = ok a | raise | ub` (`Verif/Common.lean`). A C++ exception and undefined behaviour
  are different outcomes and neither is conflated with a result.
* A property that is false of the code keeps its full English statement in `properties.jsonl`. The
  development then proves the negation on a concrete witness (`..._counterexample`) and the part that
  does hold (`..._partial`, or a theorem whose hypotheses exclude the failing case), and the manifest
  says "partial".
* `seeded/LOG.jsonl` records the wrong programs the theorems were tested against. `tools/mutate.py`
  makes one edit of the model in a scratch copy, rebuilds and records which theorems fail.

## What is modelled

Paths are relative to `/repo`.

| area | code modelled | left out |
|------|---------------|----------|
| `Time` | `aslam_cv/aslam_time`: time and duration arithmetic, comparison, normalisation, conversions | wall clock, sleeping, printing |
| `Archive` | `sm_boost` portable binary archives: integer, bool, size encoding, flags, endianness macro as a parameter | header, floating point, class versions |
| `MatArchive` | `sm_matrix_archive`: all operations, file format, loading, appending | big-endian branch (it throws), stream write failures |
| `JobQueue` | `sm_boost/JobQueue`: schedule, workers, wait, stop, join, destructor as a transition system | futures, jobs that throw |
| `Timer`, `Corrector` | `sm_timing`: timer registry and handles; clock skew corrector | accumulator statistics other than counts |
| `UnionFind`, `Tag` | `aslam_apriltag2`: union-find; tag codes, rotation, decoding, shipped families | image processing |
| `Kinematics` | `sm_kinematics`: quaternion algebra, rotation matrices, axis-angle, Euler angles, Rodrigues parameters, rotation vectors, S matrices, transformations, interpolation | uncertain and homogeneous types (see the table below for what was added later) |
| `Camera` | `aslam_cameras`: radtan, equidistant, field of view distortion; pinhole, omnidirectional, extended unified, double sphere projection, back-projection and all their Jacobians; error bounds of the iterative undistortions (`Camera.Converge`) | depth projection, masks, shutters |
| `Target` | `aslam_cameras`, `aslam_cameras_april`: checkerboard, circle grid, April grid, observations, detector with outlier filter, design variable container | OpenCV itself, GUI |
| `Expr` | `aslam_backend_expressions`: design variables, expression nodes of all kinds with their cached members, evaluation, Jacobians with and without chain rule matrix, reported variables, update, revert, minimal difference, prior error terms | generic matrix and scalar expressions, matrix transformation, caching wrappers, minimal difference Jacobians |
| `BSpline` | `aslam_bsplines/BSpline`: basis matrices, evaluation, derivatives, integral, knots, counts, segment removal | fitting, pose splines |
| `Pose` | `aslam_bsplines/BSplinePose`: poses, velocities, accelerations and their Jacobians for all orientation families; `aslam_splines/BSplineExpressions`: the expression nodes on a pose spline, including the one whose time is an expression | fitting, design variable remapping, minimal splines |
| `Motion` | `aslam_bsplines/BSpline`: quadratic integrals of a segment and of the curve, dense, diagonal and sparse, and their factors; `aslam_splines/BSplineMotionError` (error, right-hand side, normal equations), `BSplineMotionErrorFactory`; `DesignVariableMappedVector` and the prior terms made of it | the singular value decomposition (given by its contract), printing |
| `Imu` | `aslam_splines/BSplineExpressions`: the fixed-time nodes on a pose spline and on a vector spline as leaves of expression trees; `kalibr`: `EuclideanError`, `AccelerometerError(Eccentric)`, `GyroscopeError(Eccentric)`, and the predictions `IccSensors.py` builds for the three models of a unit, the choice of the measurements | the M-estimators, the weights, the initial guesses, the camera side of `IccSensors.py` |
| `Reproj` | `aslam_cv_error_terms`: `ReprojectionError`, `SimpleReprojectionError`; `aslam_cv_backend`: `CameraDesignVariable` with the updates of projection and distortion | the M-estimators, the covariance reprojection error |
| `Geometry` | `aslam_cameras/CameraGeometry`: updates, dimensions, stacked Jacobians and parameters of projection, distortion and shutter together (blocks compiled without assertions) | serialisation, masks, initialisation from observations |
| `KeyTime` | `aslam_cameras`: shutters, `Frame::keypointTime`; `aslam_cv_backend`: the keypoint time expression | rounding of `double` |
| `Fit` | `aslam_bsplines`: `BSpline`: `initSpline`, `addCurveSegment`, `addCurveSegment2`, `initSpline2`, `initSpline3`, `initSplineSparse`, `initSplineSparseKnots`, `initConstantSpline`, `Phi`, coefficient vectors and their indices | the linear solvers are functions assumed to be exact (`Fit.Exact`) where a theorem says so; `double` |
| `Cov` | `aslam_sparse_block_matrix`: `MarginalCovarianceCholesky`; `aslam_backend`: `Optimizer::computeDiagonalCovariances`, `computeCovariances`, `computeCovarianceBlocks`, `LinearSolverCholmod::solvePattern` | the Cholesky factor and its permutation are given; the square root is exact; `int` overflow in the index of the cache is modelled; hash maps are functions; `double` |
| `Marg` | `aslam_backend`: `marginalize`, `MarginalizationPriorErrorTerm`, `DenseQrLinearSystemSolver::buildSystem`, `LinearSystemSolver::evaluateError` | the QR decomposition and the inverse are functions assumed to be right where a theorem says so; the rank test is only logged in the code; `minimalDifference` and its Jacobian are given; `double` |
| `Lin` | `aslam_incremental_calibration`: `LinearSolver::solve`, `solveSystem`, `analyzeMarginal`, accessors; the reductions of `linalg.cpp`; `marginalize.cpp` | the QR factorisation (SuiteSparseQR) and the singular value decomposition (Eigen) are functions assumed to be right where a theorem says so; sparse matrices are dense; memory and exceptions of the libraries are not modelled, nor is a factor reused for another pattern of the same size; a division by zero is `ub`; `double` |
| `App` | `kalibr` (Python): dataset readers, `TargetExtractor.py`, `ObsDb.py`, `MulticamGraph.py`, error terms and outlier filter of `CameraCalibrator.py` and `kalibr_calibrate_cameras`, knot sequences of the rolling shutter calibration, `ConfigReader.py` | the detector, the estimator, `igraph` and the PnP solution are functions or relations over which the theorems quantify; worker processes are steps in any order, their queues are atomic; transformations are a group; files are records of fields, not text; random orders are parameters; printing and plots are left out; `float` |
| `Icc` | `kalibr` (Python): `IccSensors.py` (time shift, rotation vectors, images used, chain results, pose of a unit), `IccCalibrator.py` (file of the chain), `RsCalibrator.py` (error terms, guesses, configuration), `kalibr_calibrate_rs_cameras` | signals are sequences of rationals; transformations of the chain are a group; scipy's refinement, plots and reports are not modelled |
| `Print` | `kalibr_create_target_pdf` (April board, checkerboard), `TagDetector.cc` (step eight: threshold, reading, corners), `Quad.cc` (interpolation), `GrayModel.cc` | the paper is a list of black rectangles; coordinates and grey values are exact reals; a quadrilateral and its homography are given; axes, captions and the search of quadrilaterals are not modelled |
| `Quads` | `aslam_apriltag2`: `TagDetector.cc` steps 5, 6, 7 and 9, `Quad.cc` search, `GLine2D.cc`, `GLineSegment2D.cc`, `Gridder.h`, `overlapsTooMuch`, `mod2pi` | image filtering and gradients, `float` rounding (exact reals, `atan2` as the argument of a complex number), overflow of conversions to `int` |
| `Pixels` | `aslam_apriltag2`: `Gaussian.cc`, `FloatImage.cc` (filter), gradients and grouping of pixels in `TagDetector.cc` (steps 1 to 3), `Edge.cc` | `float` rounding (exact reals); the sorting of the pairs is an arbitrary permutation; images smaller than the kernel |
| `Pcg` | `aslam_sparse_block_matrix`: `linear_solver_pcg.h`, `implementation/linear_solver_pcg.hpp` (the iterative solver, with the pointers it keeps from call to call) | `double` rounding (exact reals); the fixed size variants of the block product (same formula); printing |
| `Init` | `kalibr_camera_calibration/CameraIntializers.py`: `stereoCalibrate`, `calibrateIntrinsics`, `solveFullBatch` (medians, start values, error terms, design variables, the value returned) | the optimizer (any function of the problem), the pose from one view (any function), logging, noise models of the terms |
| `Solvers` | `SparseCholeskyLinearSystemSolver.cpp`, `SparseQrLinearSystemSolver.cpp`, `DenseQrLinearSystemSolver.cpp`, the calls of `LinearSystemSolver.cpp` they inherit, `Cholmod::solve` by QR with normalised columns; built on the compressed column matrix of `CCM` | CHOLMOD, SuiteSparseQR and Eigen's QR (parameters with a stated contract, shown to be satisfiable), covariance and rank queries, the block Cholesky solver (area `Normal`), the writing of the dense Jacobian (area `Jacobian`) |
| `Uncertain` | `UncertainTransformation.cpp`, `UncertainHomogeneousPoint.cpp`, `HomogeneousPoint.cpp`, `UncertainVector.hpp`, `homogeneous_coordinates`, the uncertain operators of `Transformation.cpp`; random vectors are families in a real inner product space, derivatives are taken along curves | random and serialised objects, `isBinaryEqual`, assertions of debug builds, `convertToVector`/`convertToPoint` |
| `Stats` | `NormalDistribution1v.cpp`, `NormalDistributionMv.tpp`, `EstimatorMLNormal1v.cpp`, `EstimatorMLNormalMv.tpp`, `UniformDistribution1v.tpp`, `UniformDistributionMv.tpp`, `GammaDistribution.tpp`, `ChiSquareDistribution.cpp`, the special functions, the exponential, geometric, Poisson, categorical and uniform samples of `Randomizer.tpp`; densities are compared with Mathlib's distributions, probabilities are measures of draws | Eigen's decompositions (parameters with a stated contract), the functions of the C library and of Boost (the functions they approximate), `random()`, `sampleNormal`, `sampleGamma`, `invcdf`, the approximate chi square median, streams and copies |
| `Histogram` | `HistogramMv.tpp`, `Histogram1v.tpp`: samples, sum, normalisation, mean, median, mode, variance, on the model of `Grid.tpp` | mean, mode and covariance in several dimensions, streams and copies, rounding |
| `Generic` | `implementation/GenericScalarExpression.hpp`, `implementation/GenericScalar.hpp`, `FixedPointNumber.hpp` of the expression library: values and Jacobians of generic scalar expressions, the scalar design variable, fixed point arithmetic of 8, 16 and 32 bits | 64 bit fixed point numbers, `GenericScalarExpressionNodeFromVectorExpression` |
| `Numpy` | `sm_numpy_eigen`: `NumpyEigenConverter` (`convert`, `convertible`, `construct`), `copy_routines.hpp`, `type_traits.hpp` | rounding to floating point types, byte order, alignment of the storage |
| `Mask` | `aslam_cv`: `ImageMask`, `calculateOverlappingFov.cpp`, with the sharing of pixels between image headers | reading masks from files, the template versions of the overlap, the cameras themselves (a camera is a map from keypoints to rays and a set of visible points) |
| `Bag` | `kalibr_bagextractor`, `kalibr_bagcreater`: names of files, time stamps, sorting | several topics, the command line, images and ROS messages themselves, other files in the folder |
| `Export` | `kalibr_okvis_config`, `kalibr_rovio_config`, `kalibr_msf_config`: the values written | the text around the values, printing of numbers, `kalibr_maplab_config` (imports a module Python 3 does not have) |
| `Validator` | `kalibr_camera_validator`: overlap graph, transformations in the chain, rectification, table of errors | images, detection of the target, windows, ROS messages; `cv2.initUndistortRectifyMap` is taken as documented |
| `Report` | `CameraCalibrator.py`: `recoverCovariance`, `printParameters`, statistics, numbers of figures; `IccUtil.generateReport`: pages and numbers of figures | what is drawn, PDF files |
| `Visual` | `kalibr_calibrate_imu_camera`: sensors, models, names of results; `kalibr_visualize_calibration`: poses and outlines; `kalibr_camera_focus`: the measure | the rest of the commands, windows, the Fourier transform; `kalibr_visualize_distortion` (not valid Python 3) |
| `Serial` | saving and loading of matrices, images, distortions, projections, shutters, masks, cameras, transformations, points, vectors, keypoints, landmarks, stamps, targets, observations and detectors in text, binary and XML archives | Boost itself (formats, tracking of pointers, registration of classes), older versions of cameras, frames, rounding of numbers in text |
| `PTree` | property trees: names and namespaces, setting, getting, defaults, tests for names, over the tree of Boost | reading and writing of files, lists of children, the numbers in texts (a translator that reads what it wrote) |
| `Util` | replacing of characters, padding, variables in texts, lists in streams, identifiers with their texts and order, comparisons of numbers up to a precision, integers in portable archives | random identifiers, the strings and floating point numbers of portable archives, classes and pointers in archives |
| `Gme` | generic matrix expressions with all their operations, differentials and Jacobians; quaternion expressions in all four modes: product, inverse, conjugate, rotation, exponential map; generic vectors, unit quaternions and vector expressions as design variables | `log` of quaternions, matrices of dynamic size, scalars of other types, the dangling reference in `dexp` |
| `Align` | `threePointSvd`, `qMethod` with and without weights | the two decompositions of Eigen: each is an arbitrary function with the properties its documentation promises |
| `Trafo` | the transformations of the incremental calibration in two and three dimensions: constructors, setters, inverse, transform, uninitialised members | streams |
| `Mutex` | `Mutex` and `Condition` of the incremental calibration as a transition system, for any number of threads and any schedule, with spurious wake-ups and any choice of the thread that is signalled | failures of POSIX calls, the state of registered `Thread`s during a wait, destruction |
| `Undist` | rectangles, new camera matrix and maps of the undistorters, the null undistorter and the factory, over the reals | `cv::remap`, `cv::resize`, the omni to omni map, masks of frames, copying of frames |
| `Fov` | `calculateOverlappingFOV` for any cameras, given as back projection and visibility | rounding, `int` overflow of sizes |
| `Thr` | `Thread` and `Threads` of the incremental calibration as a transition system: one object, any number of callers and POSIX threads, any schedule | exceptions in `process()`, destruction, priorities, failures of POSIX calls but `pthread_create`, other objects |
| `Stamp` | the conversion of a time stamp to `timespec`, and `Timer`, over the reals | dates, streams, failures of `nanosleep` |
| `LogFlag` | the level, the named streams, the log locations and the two mutexes of sm_logging, one access at a time, any number of threads | weak memory, `registerLogLocation` called directly, locations destroyed early |
| `LogPrint` | `vformatToBuffer`, the formatter with its tokens, and `print` with its mutex and its guard against recursion | the conversions of printf, the clock, extra tokens changed while printing, streams other than the text written |
| `Depth` | `DepthProjection`: projection, validity, homogeneous points, parameters, archive, over the reals | the property tree constructor (C150), rolling shutters and masks, which are shared with the other cameras |
| `Reuse` | the buffers of the CHOLMOD, CSparse and SPQR solvers over histories of calls, the blown up ordering, `MatrixStructure` | the factorizations inside the libraries, a failure of the ordering (`cholmod_amd`), the sorting and the text of the written file |
| `RsCov` | the adaptive covariance of the rolling shutter reprojection error, the matrix square root in two dimensions | its Jacobians (those of C106), the square root in higher dimensions, the change of the weight within one step of the optimizer |
| `Printed` | the pages of `kalibr_create_target_pdf` as filled rectangles, the decoding of one quadrilateral of the tag detector, against the targets of `Target` and the codes of `Tag` | arrows, labels and captions, the other tag families, rounding to pixels, the threshold of the image, the homography beyond its four corners, what OpenCV finds on a checkerboard |
| `Random` | `sm_random` over an arbitrary engine of 32 bits and an arbitrary normal distribution that may keep a value | the engine and the distributions of Boost themselves, calls from several threads |
| `Simple` | `SimpleOptimizationProblem` with shared pointers, control blocks and deleters, `DesignVariableAdapter` | accesses beyond the end, weak pointers, problems that share raw pointers |
| `Dense` | `LinearSolverDense` on the block matrices of `Sparse`, over any factorization that solves symmetric systems without kernel | the factorization of Eigen, rounding, matrices with different layouts of rows and columns |
| `Schur` | `applySchurComplement`, `buildDsi` and `sliceInto` on blocks of any sizes and any pattern, with Mathlib's matrices and inverse | offsets of segments (those of `Sparse`), rounding, the choice of the eliminated variables |
| `OldOpt` | `Optimizer::optimize`, `initialize` (order of the variables), `setInitialLambda`, `getLmRho`, reverting, over an arbitrary objective, solver and update | the set of error terms, NaN, timing, messages; the linear algebra is in `Schur`, `Dense`, `Sparse` |
| `OldDog` | `Optimizer::optimizeDogLeg`: the three kinds of steps, the ratio, the radius and both loops, in any inner product space | eliminated variables, the choice of solvers, NaN beyond the ratio |
| `NumDiff` | `NumericalDiff::estimateJacobian`, the three macros of `FiniteDifferences.hpp`, `ErrorTerm::evaluateJacobiansFiniteDifference` with its functor, in any dimensions | rounding, the container of the Jacobians, `ErrorTermDs` and `ErrorTermFs` checks |
| `CamFactory` | `CameraGeometryBase::create`: the type strings | reading the parameters (see `PTree`) |
| `Ccs` | `writeCCSMatrix`: the entries, their order and the header of the file | the rounding to nine digits, the file system |
| `Ids` | `sm::Id` and the classes of its macro: comparisons, increments, unset identifiers | the stream operator, `setRandom`, the hash |
| `VecDv` | `VectorDesignVariable`: values, updates, reverts, parameters | the stream functions |
| `Quadratic` | `sm::solveQuadratic`, `sm::sgn` | rounding |
| `RCov` | `computeCovariance`, `computeSumLogDiagR`, `checkColumnIndices` | rounding |
| `Single` | `Singleton`: any program of one thread; any number of threads in `getInstance` | effects of a data race other than the order of the reads and writes |
| `Homog` | `Homography33` as compiled, its use in `Quad`, the turned homography of a detection, `TagDetection::interpolate`, `getXYOrientation` | `cv::findHomography` (a parameter), the version without `STABLE_H`, `getRelativeTransform`, drawing |
| `MatDv` | `MatrixTransformation`: constructors, update, revert, parameters, Jacobian with the chain rule | `minimalDifference`, the Jacobian without the chain rule (marked as unused), checks of debug builds |
| `Lm` | `Landmark`: copying, swapping, the setters, descriptors on a heap, landmarks from keypoints | serialization, random landmarks, the arithmetic of points (`Kinematics`), release of descriptors |
| `Kinds` | `DenseMatrix::fromDenseTolerance`, `SparseBlockMatrixWrapper::fromDenseTolerance`, compared with `CompressedColumnMatrix` | printing, products of the dense matrix (Eigen) |
| `Optimizer`, `Threads`, `Problem` | `aslam_backend`: `Optimizer2` loop, threaded error evaluation, problem bookkeeping, design variable updates | cost evaluation that throws inside the loop, timing |
| `Jacobian`, `Normal`, `CCS`, `CCM`, `Sparse` | `aslam_backend`, `aslam_sparse_block_matrix`: Jacobian containers, normal equations, block Cholesky system, compressed column matrices and builder, sparse block matrices and exports | sparse factorisation (a parameter), matrix views |
| `Robust`, `TrustRegion` | `aslam_backend`: M-estimator weights, Gauss-Newton, dog-leg and Levenberg-Marquardt policies | |
| `Batch`, `Merged`, `Estimator`, `Permute`, `Grid` | `aslam_incremental_calibration`: batches, merged problem, incremental estimator, container permutation, grid | the optimiser and linear solver inside the estimator are an oracle; statistics |

Not expressible in the model: run time and memory, numerical rounding error, the behaviour of OpenCV,
SuiteSparse/CHOLMOD and Boost themselves, GUI windows, ROS bag input and output.

## How the properties are proved

* Round trips (C04, C05, C09, C48, C49, C51, C54, C57, C80–C87): both directions as equations, by
  algebra, case analysis or calculus.
* Histories (C07, C08, C10, C13, C21, C27, C30, C36, C59, ...): an invariant that relates the state to an
  abstract one (a map, a set, an equivalence, a matrix), preserved by every operation, then induction
  over the list of operations or the schedule.
* Denotations (C26–C28, C33, C34, C71–C75): the data structure denotes a matrix; each operation is proved
  to commute with the denotation.
* Calculus (C46, C52, C55, C83): `HasDerivAt` from Mathlib, for all parameters in the stated domain.
* Decision logic (C22–C25, C31, C32, C38, C69, C78, C79, C89, C90): the exact condition under which each
  outcome occurs.

## Properties

Generated by `tools/design.py` from `properties.jsonl` and `MANIFEST.json`.

<!-- BEGIN GENERATED -->
| id | property | status | modelled in | what is proved and what is not |
|---|---|---|---|---|
| C01 | Adding a duration to a time is exact and normalised | proved | Time.Props | exact integers; 64-bit sums of 32-bit fields cannot overflow |
| C02 | Time order is the order of instants | proved | Time.Props | The full statement. |
| C03 | Durations have one representation per value | partial | Time.Props | false of the code: normalizeSecNSecSigned uses > instead of >=, fromSec leaves negative nanoseconds (counterexamples proved). Proved: totals are always exact, and normalised unless nanoseconds are a positive multiple of 10^9. |
| C04 | Times and durations survive the trip through nanoseconds | proved | Time.Props | differences for times below 2^31 s (the range operator+ can return); wrong outside that range (counterexample proved) |
| C05 | Portable archive integers round-trip | partial | Archive.Props | false in the real little-endian build: #ifdef BOOST_ENDIAN_BIG_BYTE is always true with Boost.Predef, so 5 is read back as 0; writing INT64_MIN is undefined (both counterexamples proved). Proved for builds whose symbol matches the machine, across machines and stream flags. |
| C06 | Portable archives are self-delimiting and never mis-size | partial | Archive.Props | framing and width check proved for every build; value sequences for builds whose endianness symbol matches the machine. 40000 read into int16 gives -25536 without an exception (counterexample proved). |
| C07 | Job queue runs every queued job exactly once and in order | partial | JobQueue.Props | For every interleaving: jobs are taken from the queue in scheduling order, each is executed at most once, none is lost, and the workers finish all scheduled jobs in a bounded number of their steps when not stopped; with one worker start and completion order equal the scheduling order. With several workers the call of a job can be overtaken between taking and calling it: counterexample. |
| C08 | Waiting for an empty queue means all work is done | proved | JobQueue.Props | For every reachable state of every interleaving, also with stop and spurious wakeups: a returned call has all earlier jobs finished, a sleeping call has work left that will wake it. |
| C09 | Matrix archive files round-trip | partial | MatArchive.Props | proved for every content below 4 GiB per entry, any selection of names on both sides and any target archive; false for larger matrices whose shape still fits the 32-bit fields (counterexample proved). |
| C10 | Matrix archive lookups return the last value stored | partial | MatArchive.Props | false of the code: clear(name) keeps strings, setScalar/setVector/createMatrix keep a string of the same name (counterexamples proved). Proved for every other history. |
| C11 | Matrix archive accepts exactly the legal names | partial | MatArchive.Props | proved for setScalar, setString, setMatrix, setVector; false for createMatrix, which does not check the name (counterexample proved). |
| C12 | Archive sizes count the stored entries | partial | MatArchive.Props | false of the code: sizeMatrices counts strings (counterexample proved). Proved: sizeStrings right; the others exactly when the two counts agree. |
| C13 | Union-find merges exactly the connected pixels | proved | UnionFind.Props | every element count and history; absence of unbounded recursion and out-of-range access included |
| C14 | Tag decoding finds the nearest code word over four rotations | proved | Tag.Props | grids of at most 64 cells (larger ones are undefined, C16_too_large) |
| C15 | Tag decoding corrects bounded bit errors | proved | Tag.Props | The full statement. |
| C16 | Four quarter turns of a tag code are the identity | proved | Tag.Props | The full statement. |
| C17 | Clock correction keeps a supporting lower hull | partial | Corrector.Props | everything proved except strictness of the slopes, which is false of the code: collinear samples are all kept (counterexample proved). |
| C18 | Corrected stamps never run ahead of reception | proved | Corrector.Props | exact arithmetic over any linearly ordered field |
| C19 | Clock correction never reads outside its hull | partial | Corrector.Props | false of the code: the midpoint index is stale when the hull collapses to two points (counterexample proved: out-of-range read). Proved for three or more hull points, and for two with index 0. |
| C20 | Time-going-backwards is rejected without side effects | proved | Corrector.Props | The full statement. |
| C21 | Timers are accounted to the right tag | proved | Timer.Props | clock readings are inputs; accumulator statistics other than the count are not modelled |
| C22 | Optimisation never ends with a larger cost than it started | partial | Optimizer.Props | cost monotonicity proved for every policy that reverts; that the variables left behind have the reported cost is proved unless a zero-dimensional active variable was overwritten before (counterexample proved). |
| C23 | Optimisation stops within its iteration budget | proved | Optimizer.Props | The full statement. |
| C24 | Block and column indices tile the state vector | partial | Optimizer.Props | tiling of active variables and error terms proved; false for inactive variables: a deactivated variable keeps its old index (counterexample proved). |
| C25 | State updates are undone exactly | partial | Optimizer.Props | segments and revert proved for variables of positive dimension; false for zero-dimensional ones (counterexample proved). |
| C26 | Adding Jacobian containers adds the maps | proved | Jacobian.Props | exact arithmetic; block indices told apart by active variables (what C24 establishes) and unchanged during use; a container is not added to itself. |
| C27 | Compressed column matrix stays well formed and means the dense matrix | partial | CCM.Props | Any history of Jacobian appends and diagonal pushes, updates and pops keeps the arrays well formed with the intended dense meaning, and dense expansion, access and products agree with it. False for clear (pointers sized by rows), for taking over a dense matrix while a diagonal is pushed and for init of a used object: counterexamples. |
| C28 | Pushing and popping a diagonal block leaves the matrix unchanged | proved | CCM.Props | Push, any number of updates, pop is the identity on the object; the pushed matrix means [M diag]; misuse raises. |
| C29 | Threaded error evaluation covers every error term once | proved | Threads.Props | every interleaving; number of terms fits an int; exact sums; undefined for no terms and several threads (C29_defined) |
| C30 | Optimisation problem bookkeeping is consistent | partial | Problem.Props | proved for every history in which no addErrorTerm raised; false after a raise in a debug build (the rejected term stays) and removing a variable mentioned twice by a term uses the deleted term (counterexamples proved). |
| C31 | Robust weights are valid | partial | Robust.Props | Proved for no estimator, Cauchy and Huber. Geman-McClure: positive and non-increasing but the weight at zero is 1/sigma^2 (valid iff sigma^2 = 1); Blake-Zisserman: in (0,1), non-increasing, equals wCut at the cut, but never 1 at zero. Both deviations are proved. |
| C32 | Trust-region steps stay in the trust region | partial | TrustRegion.Props | Dog leg: for every history of calls without a failure of the linear solver the step is on the dog-leg path and not longer than the radius; after a failure the next call returns the vector of the failed solve (counterexample). Levenberg-Marquardt: damping positive for every history. |
| C33 | Sparse block matrices denote dense matrices | partial | Sparse.Props | Proved for writing blocks, element access, dense conversion, transpose, addition, matrix and vector products, scaling and slices. False for transpose and multiply into a destination that already holds blocks: counterexamples proved, with the exact result proved instead. |
| C34 | Compressed-column export lists exactly the stored entries | partial | Sparse.ExportProps | Full export, values-only export, symmetric export from the upper triangle and block structure proved. fillCCS with upperTriangle is proved for matrices that store no block below the diagonal; a block below the diagonal is exported in full (counterexample proved). |
| C35 | Batch problems index their variables consistently | proved | Batch.Props | error-term dependency lists are inputs |
| C36 | Merged problem counts references of shared variables | proved | Merged.Props | histories in which every add returned; batches built through their own interface and not modified while live |
| C37 | A failed batch addition leaves the merged problem unchanged | partial | Merged.Props | false of the code: a rejected batch leaves variables, counters and groups behind (counterexamples proved for a group clash and for a shared error term). Proved in every state: live batches, saved values and parameters unchanged; a null batch changes nothing. |
| C38 | A rejected batch leaves the estimator unchanged | proved | Estimator.Props | optimiser and linear solver are an oracle; histories in which every addBatch returned. Also the exact acceptance rule and the exact layout after a rejection. |
| C39 | Marginalised group is ordered last | proved | Estimator.Props | including the start column handed to the linear solver |
| C40 | Grid cell indexing is a bijection | partial | Grid.Props | Proved for every number of dimensions and cells: a point in range lies in the cell of its index, out of range raises; the linear index is a bijection; stepping visits every cell once and stops; cells are independent; too large indices raise. False in the code: negative indices are accepted (out of bounds read), centres of a partial last cell can be out of range, integral centres are rounded into another cell: counterexamples. |
| C41 | Spline basis is a partition of unity | partial | BSpline.Props | false of the code at t_max when the last knot segment is empty: all weights are 0 (counterexample proved). Proved for every order, nondecreasing knots and time otherwise; also derivative weights sum to 0. |
| C42 | Spline evaluation is the B-spline of the knots and coefficients | partial | BSpline.Props | equality with the Cox-de Boor spline proved for every order/knots/time outside the 1e-10 snapping zone or inside a non-empty last segment; false at t_max with an empty last segment (counterexample proved). |
| C43 | Every time in the valid range hits an existing segment | partial | BSpline.Props | range, window and raise conditions proved for every time; bracketing fails only for times within 1e-10 of t_max outside the last segment (counterexample proved). |
| C44 | Knot sequences are validated | partial | BSpline.Props | false of the code: the loop is bounded by the size of the old knot vector (accepts a decreasing sequence on a fresh spline, reads out of range on a longer one; counterexample proved). Proved when old and new lengths agree, and the count checks always. |
| C45 | Dropping the oldest segment does not change the rest of the curve | partial | BSpline.Props | false of the code for non-uniform knots: basis matrices are not removed (counterexample proved). Proved for uniform knots, all derivatives. |
| C46 | Spline derivative and integral are the calculus ones | partial | BSpline.Calculus | n-th derivative inside every segment; integral antisymmetric and additive always, exact up to the dropped remainders (error bound 2e-16*B, exact when none is dropped; counterexample for exactness proved). |
| C47 | Knot, segment and coefficient counts are consistent | proved | BSpline.Props | The full statement. |
| C48 | Quaternion composition is composition of rotations | proved | Kinematics.Quat | All quaternions; unit quaternions where a rotation matrix is involved. |
| C49 | Rotation matrix to quaternion and back | proved | Kinematics.R2Quat | Every rotation matrix; every unit quaternion is recovered up to its sign. |
| C50 | Rigid transformations form a group acting on points | proved | Kinematics.Transform | Every transformation built by the constructors and operations; exact arithmetic. |
| C51 | Rotation vector round trip | partial | Kinematics.AxisAngle | Proved for rotation vectors of length at least the threshold and below a half turn, and for every rotation matrix except half turns. Half turns are lost (mx2AxisAngle returns zero): counterexample. |
| C52 | Euler-angle rates give the true angular velocity | partial | Kinematics.EulerProps, Kinematics.RVJacobian | Rates and Jacobians proved for yaw-pitch-roll, ZYX, ZXY and Rodrigues parameters at every value, also at the singularities. For rotation vectors rates and Jacobian are proved above the threshold 1e-14; at zero the code evaluates 0/0. |
| C53 | Axis-angle rotation depends continuously on the angle | partial | Kinematics.AxisAngle | The matrix is the rotation about the axis by the angle for angles above the threshold and zero; every negative angle gives the identity (counterexample), angles below 1e-14 too. |
| C54 | Pinhole back-projection inverts projection | proved | Camera.PinholeProps | Both directions, for every distortion whose undistort inverts distort at the point concerned; instantiated without distortion (C54_no_distortion) and for the field of view distortion (C54_fov). The equidistant distortion does not meet the hypothesis at the image centre (C54_equidistant_counterexample), see C60. |
| C55 | Projection Jacobians are the derivatives | partial | Camera.DistProps, Camera.DsProps, Camera.EucmProps, Camera.FovProps, Camera.OmniProps, Camera.PinholeProps, Camera.UndistProps | Point, intrinsics, distortion parameter, homogeneous point and back-projection Jacobians of the pinhole, omnidirectional, extended unified and double sphere projections and of the radtan, equidistant and field of view distortions (domains stated in the theorems; the parameter of the field of view distortion outside the disc of small radii, C55_fov_parameters_partial). False in the code: the equidistant Jacobian at the image centre is NaN, the field of view parameter Jacobian next to w = 0 and at small radii (C55_fov_parameters_counterexample), the pinhole back-projection Jacobian (diag(1/fu, 1/fv) on the wrong side) and the extended unified intrinsics Jacobian (both rows use fu). |
| C56 | Homogeneous projection ignores the sign of the scale | partial | Camera.DsProps, Camera.EucmProps, Camera.OmniProps, Camera.PinholeProps | Holds at non-zero scale for all four projections, with the pinhole overload that returns a Jacobian as the exception: it ignores the sign of the scale for the validity flag. False in the code for points at infinity and for that overload. |
| C57 | Omnidirectional back-projection inverts projection | proved | Camera.OmniProps | Both directions for every mirror parameter >= 0 and every distortion whose undistort inverts distort at the point concerned; unconditional without distortion (C57_no_distortion). The keypoint direction excludes only the rim of the reachable circle. |
| C58 | Calibration target indices and coordinates correspond | partial | Target.GridProps | The index numbering is a bijection and lookup agrees with it. Reported grid coordinates are in the order column, row instead of row, column; getPointDataPointer has an inverted assertion, so it raises on every valid index, reads out of bounds on invalid ones, and no design variable container can be built. |
| C59 | Target observations report exactly the observed corners | proved | Target.ObsProps | Refinement to a map from indices to points, for every history of calls including raising ones. |
| C60 | Undistortion stops at an exact solution | partial | Camera.UndistProps | radtan and equidistant: an exact solution is a fixed point where the Jacobian is regular and the update is defined. False in the code: at the image centre the equidistant undistort returns NaN, and radtan where the Jacobian is singular. |
| C61 | Container permutation applies the given permutation | partial | Permute.Props | proved for permutations and wrong lengths; false for other index vectors: [0,0] never returns, [1,5] raises after swapping, [1,1] is accepted (counterexample proved). Elements are kept in every case. |
| C62 | Saving and restoring the merged problem touches exactly its variables | partial | Merged.Props | proved for histories without clear; false after clear, which keeps saved values of forgotten variables (counterexample proved). |
| C63 | An estimator call that raises leaves the estimator unchanged | partial | Estimator.Props | false of the code (three counterexamples proved); proved: a raising call never changes the stored estimates. |
| C64 | Appending to an archive file adds the entries | partial | MatArchive.Props | false of the code: append writes nothing (counterexample proved). Proved: the existing entries are kept. |
| C65 | A damaged archive file is rejected | partial | MatArchive.Props | false of the code: reading past the end is not detected (counterexample proved). Proved: a wrong start byte is rejected. |
| C66 | The shipped tag families have their declared minimum distance | partial | Tag.Tables | proved for 16h5, 25h7, 25h9, 36h9 and 36h11; false for 16h5_other and 36h11_other (counterexample proved). |
| C67 | A calibration-target tag survives five misread cells | proved | Tag.Tables | The full statement. |
| C68 | J() is the cost of the current state | partial | Optimizer.Props | false of the code for reverting policies (counterexample proved); proved for non-reverting ones. |
| C69 | Optimisation stops when it has converged | partial | Optimizer.Props | false of the code after a solver failure (counterexample proved); proved while the solver does not fail. |
| C70 | An exception in an error term reaches the caller | partial | Threads.Props | false of the code: with several threads the exception is sliced to std::exception (counterexample proved). Proved: an exception is never swallowed and none is invented. |
| C71 | The Hessian contribution of an error term | proved | Normal.Props | One term and the whole block Cholesky system, with M-estimator weights; the square root is any function with sqrt(w)^2 = w on the weights that occur. |
| C72 | Symmetric permutation of a sparse block matrix | proved | Sparse.PermProps | Both modes, for a freshly allocated destination. |
| C73 | Solving a damped system leaves the system unchanged | partial | Normal.Props | False of the code: after a solve the diagonal has grown by c^2 - c (counterexample and exact effect proved). That the damped system is the one solved is proved; restoration is proved for conditioners with entries 0 or 1. |
| C74 | Curvature along the right-hand side | partial | Normal.Props | False for the block Cholesky solver, which multiplies with the stored upper triangle (counterexample on a built system; exact value proved). Holds if the system is diagonal. |
| C75 | The sparse Jacobian builder assembles the Jacobian of the problem | partial | CCM.Props | Proved for every order of evaluation when each term fills its container with exactly its active variables; an error term that leaves out an active variable gets its values in the wrong rows (counterexample). |
| C76 | Stopping and destroying a job queue | partial | JobQueue.Props | Proved: no job is started after stop; when all workers returned nothing runs and the rest is still queued in order; the destructor makes progress and waits for the workers that have begun. False in the code: join() can hang (flag set and notified without the mutex), and the destructor can return before a created worker has registered: counterexamples. |
| C77 | The robust cost grows with the error | partial | Robust.Props | The cost is the squared norm of the weighted error for all estimators; it grows with the error for no estimator, Cauchy and Huber; proved to fall beyond sigma^2 for Geman-McClure and from some error on for Blake-Zisserman. |
| C78 | A rejected step makes the next one shorter | partial | TrustRegion.Props | Levenberg-Marquardt: proved. Dog leg: proved when the rejected cost is above the cost before the last accepted step; otherwise get_dJ compares with the wrong cost and the radius can grow (counterexample). |
| C79 | A step is computed from the system of the current state | partial | TrustRegion.Props | Dog leg: proved under the same condition, otherwise a stale Gauss-Newton step is used (C78_dogleg_counterexample). Levenberg-Marquardt: proved for the first call and after accepted steps with positive rho; after an accepted step with unchanged cost the system is not rebuilt (counterexample). |
| C80 | Updating a quaternion | partial | Kinematics.Update | Proved for zero and for vectors from the threshold 2^-13 on; below it the length error is that of C81. |
| C81 | Exponential and logarithm of quaternions | partial | Kinematics.Update | Proved from the threshold 2^-13 on. Below it the exponential is too long by less than theta^4/24 (wrong sign in the series) and the logarithm too short (integer quotient 1/6): both deviations proved. |
| C82 | Euler angles and rotation matrices | partial | Kinematics.EulerTrip | Proved for all angles in range and all rotation matrices except gimbal lock, where the rotation is lost (counterexample). |
| C83 | Rates and angular velocity correspond | partial | Kinematics.SMatrix | Quaternions: proved. Rotation vectors: inverse proved between the threshold 1e-14 and a full turn. |
| C84 | Interpolation of rotations and transformations | partial | Kinematics.Update | Proved when the turn between the ends and its elapsed fraction are not below the threshold 2^-13 of the exponential and the times are at least 1e-14 apart. |
| C85 | Rodrigues parameters and rotation matrices | partial | Kinematics.SMatrix | Rotation proved for all parameters; recovery proved for zero and lengths between 1e-14 and 1e14; half turns come back as the identity (counterexample). |
| C86 | Extended unified back-projection inverts projection | proved | Camera.EucmProps | Both directions, for all alpha in [0,1] and beta > 0; the keypoint direction excludes only the rim of the reachable circle. |
| C87 | Double sphere back-projection inverts projection | partial | Camera.DsProps | Point to ray for xi >= -2w (w = alpha/(1-alpha) or its inverse); keypoint to ray to keypoint whenever the projection accepts the ray. False in the code: for xi < -2w the field of view test accepts points that are projected to the wrong side (C87_ray_counterexample), and for xi > 0 it rejects rays of valid keypoints (C87_keypoint_counterexample). |
| C88 | Target points lie where documented and never coincide | partial | Target.GridProps | All three boards: positions and distinctness proved. The axes of the checkerboard are swapped with respect to its documentation (counterexample). |
| C89 | April tag corners are stored at the point of the board they belong to | partial | Target.AprilProps | Proved for an empty flag vector, as the detector passes it. A reused flag vector keeps stale flags (counterexample). |
| C90 | The corner outlier filter removes exactly the outliers | proved | Target.DetectProps | Exact set of removed corners, survival of at least one corner and a Chebyshev bound. |
| C91 | Finding a target leaves an observation of the current image only | partial | Target.DetectProps | Corners, success and pose on success proved. On failure a reused observation keeps the pose of an earlier image (counterexample). |
| C92 | Iterative undistortion comes close to the undistorted point | partial | Camera.Converge | Radial-tangential: general bound under a regularity condition (C92_radtan_partial), and unconditional bounds 1e-14 / 1e-13 for two stated ranges of parameters and points. Equidistant: general contraction bound, and 1e-8 rad up to 45 degrees for coefficients up to 1/20. Missing: parameters and points outside these ranges, where the iteration can diverge (C60_radtan_counterexample). |
| C93 | Expression values and Jacobians are the value and the derivative of the expression | proved | Expr.Container, Expr.Props, Expr.RK | Every node kind of the model, shared nodes with their cached members, any interleaved evaluations and Jacobians of the same nodes; also through the Jacobian container with only the active variables (C93_error_term). Rotation parameters need the parametrisation to be regular, which is proved away from its singularities (C93_rotation_parameters). The evaluation before the Jacobian is needed: C93_stale_counterexample. |
| C94 | An expression reports exactly the design variables it depends on | proved | Expr.Props | Spline nodes are leaves of the same trees. Sufficient: states that agree on the reported variables give the same value. Complete: every block of the Jacobian belongs to a reported variable. |
| C95 | Reverting an update restores the design variables | partial | Expr.Props | Proved for every history of updates and reverts. False after the public set of rotations, which leaves the cached rotation matrix behind (C95_set_counterexample). |
| C96 | Minimal difference undoes an update | partial | Expr.Props | Points, scalars, homogeneous points: full. Rotations: increments of length below a full turn outside the small-angle branch (C96_quaternion_partial). False in the code for the mapped quaternion (C96_mapped_counterexample). |
| C97 | Prior error terms and their Jacobians | partial | Expr.ErrorTerms | Points: full. Transformations: rotation errors between 1e-10 and pi - 1e-10. False in the code inside the dead zone around the prior, where the rotation error is constant but the Jacobian is not zero (C97_dead_zone_counterexample). |
| C98 | Pose spline rates are the derivatives of the pose | partial | Pose.Rates | pose, body-frame values, linear and angular velocity, linear acceleration proved for all families (rotation vectors above the 1e-14 threshold). False of the code for angularAccelerationBodyFrame: it omits the term with the derivative of the S matrix (counterexample proved; the exact difference is C98_angular_acceleration_partial). Pose round trip for Euler angles away from gimbal lock. |
| C99 | Pose spline Jacobians are the derivatives of the values | partial | Pose.Jacs, Pose.Rates | pose, inverse, orientation, inverse orientation, transformed vector, linear acceleration, body-frame angular velocity and acceleration proved. False of the code for angularVelocityAndJacobian: it returns the negative of angularVelocity (counterexample proved; its Jacobian is that of the negative, C99_world_rate_partial). |
| C100 | Expressions on a pose spline announce the right Jacobians for the right variables | partial | Pose.Nodes | all fixed-time nodes proved except the acceleration in the body frame, whose Jacobian ignores the orientation (counterexample proved). Time expression: margins, coverage and the Jacobian with chain rule for segments longer than 2e-10; without chain rule it reads outside its matrix whenever the node does not start at the first coefficient (proved for all such nodes). |
| C101 | The quadratic motion integrals of a spline are the integrals they claim to be | proved | Motion.Props | dense, sparse and diagonal versions proved equal, and equal to the integral of the weighted squared derivative of the Cox-de Boor curve, for all well-formed splines. |
| C102 | The motion error of a spline is its motion integral and its normal equations are exact | partial | Motion.Error | value and rhs() proved. The normal equations are exact when the active coefficients are numbered in the order of the coefficients (C102_normal_equations_partial); with another numbering the coupling entries are added below the diagonal where the solvers do not read (counterexample proved). |
| C103 | The motion error terms of a spline add up to its motion integral | partial | Motion.Prior | False of the code (C103_counterexample): the terms are built with d = R c and measure the curve with coefficients 2 c - p, with c the coefficients at creation and p those before the last update (C103_actual). They agree with the motion integral at creation (C103_at_creation_partial). The factors from the singular value decomposition and the Jacobians with respect to p are proved. |
| C104 | A mapped vector design variable follows its updates | partial | Motion.Prior | updates, reverts and setting proved. The minimal difference uses the value before the last change: false after an update (counterexample proved), right after construction, revert and remapping. |
| C105 | The error terms of an inertial measurement unit compare the measurement with the motion of the spline | partial | Imu.Cases, Imu.Physics, Imu.Props | Jacobians, reported variables, choice of the measurements, values of all five predictions and both C++ classes proved. The gyroscope prediction is the rate of the orientation. The accelerometer prediction is the specific force at the origin of the body (C105_reference_accelerometer); away from it there is the error given in C105_accelerometer_partial (C105_accelerometer_counterexample), because the angular acceleration of the pose spline is not the derivative of the angular velocity (C98). The C++ class AccelerometerErrorEccentric selects the axes in the wrong coordinates (C105_eccentric_counterexample). |
| C106 | The reprojection error and all its Jacobians are those of the camera it was made for | partial | Reproj.Cameras, Reproj.Props | Proved for pinhole, omnidirectional and double sphere cameras with every smooth distortion, jointly for all variables. Extended unified cameras need fu = fv (see C55). Equidistant and field of view distortions inherit the restrictions of C55 near the centre. A point that cannot be projected makes the error read an unwritten keypoint (C106_unprojectable_counterexample). |
| C107 | A camera can be treated as one vector of parameters | partial | Geometry.ParamProps, Geometry.Props | Update, dimensions, Jacobian for homogeneous points, offset in time and parameters are proved for all cameras and choices. For Euclidean points the stacked Jacobian is wrong when projection and distortion are both estimated (the block starts at a row instead of a column): C107_euclidean_counterexample; the other choices are C107_euclidean_partial. A refused update of the FOV parameter leaves the camera with the refused parameter (C107_fov_update_counterexample). |
| C108 | The time of a keypoint is the time at which its row was read | partial | KeyTime.Props | Time, order, global shutter and expression are proved. The Jacobian holds up to the rounding to nanoseconds only (C108_jacobian_partial, C108_jacobian_counterexample), raises for an active global shutter (C108_global_jacobian_counterexample), and the offset alone is refused when it is negative (C108_offset_partial). |
| C109 | A constant spline is constant | partial | Fit.Basic | Proved for objects that do not have more knots than the new spline. On an object with more knots the check of the new knots reads past their end (C109_counterexample). |
| C110 | The coefficients of a spline can be read and written as vectors | proved | Fit.Coeffs | The full statement. |
| C111 | The curve determines the coefficients | proved | Fit.Unique | The full statement; the last segment must be at least 1e-10 long, as shorter ones are hidden by the rounding of times to the end. For repeated knots it is false (C111_repeated_counterexample). |
| C112 | A spline through two points is the straight line between them | partial | Fit.Line | Proved for every order under the assumption that the QR solver is exact, for objects that do not have more knots than the new spline (see C109). |
| C113 | Appending a segment extends a spline | partial | Fit.Extend, Fit.Points | New end, old end, number of segments and unchanged coefficients are proved under the assumption that the QR solver is exact and the last interval is not empty, for addCurveSegment and, with weight 0, for addCurveSegment2. The curve is unchanged on all but the last order-2 segments; on those it changes (C113_counterexample). With another weight addCurveSegment2 keeps neither end (C113_second_counterexample). |
| C114 | A fitted spline is the best one on its knots | partial | Fit.Least, Fit.Points | Proved for exact solvers, nonnegative factors and objects that do not have more knots than the new spline (see C109). |
| C115 | Marginal covariances are entries of the inverse Hessian | partial | Cov.Optimizer, Cov.Props | Proved for matrices with at most 2^31 entries and an exact factor; with 46341 scalar variables the index of an entry overflows (counterexample). |
| C116 | Marginalising variables loses nothing | partial | Marg.Jacobian, Marg.Props, Marg.Witness | Proved for an exact QR decomposition, removed variables that are determined and terms on listed variables. Refuted: indices stay overwritten after an exception, the covariance is undefined with more rows than columns, a removed variable that is not determined takes information with it, an unlisted variable is written outside the matrix. |
| C117 | Solving with one group of unknowns eliminated | partial | Lin.NullSpace, Lin.Props, Lin.Witness | Proved for exact factorisations: what is minimised is the sum of squares without one orthogonal component, exact if the second group does not act on it. Refuted as stated: reduceLeftHandSide and reduceRightHandSide take one column too many of the rotated matrix (inclusive end index), so information is lost (counterexamples), and with one equation more than unknowns in the first group no step is ever delivered. A rank of an earlier matrix is kept (counterexample). |
| C118 | Information about one group of unknowns | partial | Lin.Marginal, Lin.Witness | Proved for exact factorisations and independent columns of the first group; with dependent columns information is lost (counterexample). |
| C119 | Reading a recording | partial | App.Reader | Without a window proved in full. With a window proved for messages recorded in the order of their stamps; otherwise places in the sorted list are taken for places in the recording (counterexample). |
| C120 | Extraction of targets with several workers | partial | App.Extract | Proved for every schedule and number of workers if the detector does not throw, with termination. If it throws, a worker dies silently and images are given up without an error (counterexample). |
| C121 | The observations of a rig are grouped into views | partial | App.ObsDbClaims | All the statements are proved. That the views do not depend on the order is proved for images in groups and refuted otherwise (counterexample). |
| C122 | The graph of common views | partial | App.GraphProps | Proved for every database; the graph is built if the cameras that saw something are numbered from zero. If the first camera saw nothing it is an exception (counterexample). |
| C123 | Initial baselines and target poses come from the graph | proved | App.Chain | The shortest paths and the choice of edges of igraph are arbitrary; transformations are a group. |
| C124 | Error terms of a view | partial | App.View | The terms are proved in full; the statistics of a corner only for the first camera of the view. For the other cameras they are taken from error terms of the first (counterexample). |
| C125 | The outlier filter of the camera calibration | partial | App.Filter, App.View | Consistency of views and estimator, the removal rule and a full pass are proved for every behaviour of the estimator. That few corners are removed holds for centred errors only; errors are compared with zero, the deviation is about the mean (counterexample). A restart keeps the removed corners (counterexample). |
| C126 | Adaptive knot sequences of the rolling shutter calibration | partial | App.Knots | Order, origin and conditions of the knots are proved for every history; the exact rule if no knot is dropped. Refuted: an observation at a knot is in no segment, errors are shifted once a knot is dropped, disabled segments are shared between strategies, a lookup can fail, and the last knot is appended twice. |
| C127 | Configuration files survive writing and reading | partial | App.ConfigProps | Acceptance and the round trip are proved. Refuted: results with a negative principal point are not written, a pinhole camera without distortion has no geometry, wrong target parameters are a NameError, names of units collide. |
| C128 | The time shift between a camera and a measurement unit is found | partial | Icc.Shift | Proved for messages at equal steps, shifts by a number of steps and motion inside the common time. Refuted at the borders of the common time and with a pause in the messages (counterexamples). The final refinement by scipy is not modelled. |
| C129 | Rotation vectors of a turning camera do not flip | partial | Icc.Unwrap | That the rotations are kept and each vector is the nearest within three turns is proved for all sequences; the true angle is followed for turns about one axis up to three and a half turns. Refuted beyond that, and when a turn comes back to zero (counterexamples). |
| C130 | The results of a camera to inertial calibration are those of its error terms | partial | Icc.Result | Transformations, adjacent baselines, time shifts and the file are proved for chains of any length. Refuted: baselines of cameras that are not adjacent, an old time shift that stays in the file without time calibration, and the pose of a second unit, whose lever arm has the wrong sign and frame (the exact condition for it to be right is proved). |
| C131 | Rolling shutter calibration pairs image points with their corners | partial | Icc.Rs | The exact condition under which the pairs are right is proved. Refuted: with a target seen in parts image points are paired with other corners or the program ends; a pose that is not found ends it; the weight is the inverse of what the option is called; a global shutter calibration changes later ones. |
| C132 | All images inside the time of the spline are used | partial | Icc.Frames | Proved for all images, shifts and positive paddings. Refuted: without a padding the first and last image are dropped; the printed number counts images that were not used. |
| C133 | A printed April grid is read as the target that was configured | partial | Print.Paper, Print.Read | Proved from the script to the observation for every board, start corner and non-degenerate affine view, with one black and one white level, when the spacing is more than half a cell. Missing: the search of quadrilaterals in the image. Refuted under perspective: cells are placed by bilinear interpolation, so a cell can be read in another one (counterexample). |
| C134 | A printed checkerboard has the corners of the target that was configured | partial | Print.Checker | Boxes, corners and shape are proved for all boards. Refuted: the board looks the same after half a turn exactly if the sum of columns and rows is even, as for the board of the usage message. |
| C135 | Every loop of four segments is tried as the outline of a tag, and only once | partial | Quads.Loops | Proved: exactly the closed chains of four successors with the start at a greatest angle are examined; with one strictly greatest angle exactly once. False with equal angles (counterexample: four equal angles, examined four times, the same outline is then listed several times). |
| C136 | Outlines that wind the wrong way, cross themselves or are degenerate are refused | partial | Quads.Shape, Quads.Winding | Proved: characterisation of the winding test in general position, acceptance of convex outlines of the right sense, refusal of the others and of self-crossing ones; facts about accepted outlines. False: an outline with a corner at the abscissa -1 (the mark for parallel lines) is refused although the same outline elsewhere is accepted. Darts with one re-entrant corner are accepted (example). |
| C137 | The spatial index neither loses nor repeats segments | proved | Quads.Grid, Quads.Tests | Objects a cell or more outside of the rectangle are dropped, C137_outside. Exact reals. |
| C138 | Each tag in the image is reported once, by its best detection | partial | Quads.Dups | Proved: only detections are reported and a best detection of every identifier is kept; exactly one per group if overlapping is transitive on the detections. False in general: a detection that overlaps two kept ones replaces both and is reported twice. |
| C139 | The segment fitted to the pixels of an edge is the best one and points the right way | proved | Quads.Fit | The fit needs a positive sum of weights, the direction non-negative weights and two different ends. Exact reals. |
| C140 | Smoothing the image does not distort it | partial | Pixels.Smooth | The convolution compares positions in the whole image with the length of a row: from the second row on the first columns are smoothed wrongly (C140_first_columns: they are copies of the first column; C140_counterexample). Proved: all other columns, the range, the kernel. |
| C141 | Pixels are grouped into one edge only if they belong together | proved | Pixels.Clusters | The theorem covers every permutation of the list of pairs, hence the stable sort. The magnitudes in the last row and column are zero (C141_border) and bounded for images with values from 0 to 1 (C141_bound). |
| C142 | The iterative solver solves the system it is given to the requested accuracy | partial | Pcg.Cases, Pcg.Props | Proved for all positive definite matrices and all layouts: the residual, exactness with tolerance zero, descent, and repeated use of one matrix object with changed numbers (C142_exact, C142_descent, C142_reuse). The accuracy holds only up to the absolute bound that the solver takes over from the call before (C142_accuracy_partial): with default settings a second, smaller system is answered with zero (C142_absolute_counterexample). Used for a second matrix without init, the solver mixes the blocks of both matrices or follows dangling pointers (C142_stale_counterexample). |
| C143 | The starting point of the camera calibration is the truth when the data are exact, and survives a minority of bad views | partial | Init.Batch, Init.Median, Init.Props | Proved: the median withstands any minority of bad views (C143_median), the terms and variables of all three problems, exact start with exact data (C143_intrinsics, C143_batch_exact). For two cameras the exact start and the baseline by majority need the rotation of the baseline to be the identity or to have an angle between 1e-14 and pi - 1e-14, where the rotation vector is inverted (C143_baseline_partial, C143_stereo_exact_partial). Near a half turn the component-wise median of rotation vectors fails: two nearly equal baselines give the identity (C143_half_turn_counterexample). |
| C144 | Solving the linear system gives the damped Gauss-Newton step of the system that was built | partial | Solvers.Cases, Solvers.Props, Solvers.Qr | Proved for sparse Cholesky (C144_sparse_cholesky, all histories). Sparse QR: minimises the undamped problem with the error evaluated last. False of the code: sparse QR ignores the conditioner (C144_undamped_counterexample), solves with the error of a rejected state (C144_stale_error_counterexample), writes through a null pointer if the factorisation fails with normalised columns (C144_null_counterexample); dense QR reads a flag that is never assigned (C144_dense_counterexample). The libraries are parameters. |
| C145 | Operations on uncertain transformations, points and vectors carry the covariance over to first order | partial | Uncertain.Points, Uncertain.Props, Uncertain.Vectors | Proved: products, inverse, action, sum of points, conversion, normalisation, all vector and number operations, algebraic laws, positive semidefiniteness. Differences of two uncertain points only when the fourth coordinates are certain (C145_point_difference_partial; otherwise false, C145_point_difference_counterexample: the code uses the plus matrix for both). Uncertain plus or minus certain point only when the certain one has fourth coordinate one (C145_certain_point_partial; otherwise false, C145_certain_point_counterexample: the covariance is not scaled). |
| C146 | A normal distribution is the one of its mean and covariance | partial | Stats.Multi, Stats.Normal | Proved: members after any setters, density, cumulative distribution, divergence, for numbers and vectors. False of the code for vectors: a singular covariance is accepted although there is no density (C146_singular_counterexample), and a refused covariance changes the samples, since the factor is stored before the test (C146_refused_counterexample). Eigen is a parameter. |
| C147 | The maximum likelihood estimators return the most likely normal distribution | partial | Stats.Estimator, Stats.Vectors | Proved for numbers after any history (C147_most_likely, C147_grouping). For vectors where the sample spreads in every direction (C147_vector_partial); otherwise the estimator says valid although the covariance is singular (C147_vector_counterexample). Weights that sum to zero divide by zero (C147_zero_weights_counterexample). |
| C148 | A uniform distribution is the one of its support | partial | Stats.Uniform | Proved: refusal, density, integral, variance of one number, samples (C148_density, C148_integers, C148_samples, C148_integer_samples, C148_vector_partial). False of the code: mean and median are half of the width, right only for supports that begin at zero (C148_mean_counterexample, C148_integer_counterexample); the covariance of vectors uses the volume instead of the sides (C148_vector_counterexample); integer samples take the ends half as often (C148_integer_samples_counterexample). |
| C149 | A gamma or chi square distribution is the one of its shape and rate | partial | Stats.Gamma | Proved: refusal, density, integral, mean, variance, mode, cumulative distribution, chi square, special functions. The divergence is proved for equal shapes (C149_divergence_partial); for different shapes it is false: the digamma function is taken at the shape of the other distribution, and the result can be negative (C149_divergence_counterexample). |
| C150 | Exponential, geometric, Poisson and categorical samples have the distributions they are named after | partial | Stats.Draws | Proved for all four samplers. False of the code only in a single draw: a first category of probability zero comes up when the draw is exactly zero (C150_categorical_counterexample). The Poisson sample is characterised by the arrivals, the probability of each value is not derived. |
| C151 | A histogram counts the samples in range and its statistics are theirs to half a bin | proved | Histogram.One, Histogram.Props | Proved for every sequence of samples (C151_counts, C151_normalized in any dimension; C151_mean, C151_median, C151_mode, C151_variance in one). Exact arithmetic; the mean needs a sample in range and the variance two, otherwise the code divides by zero. |
| C152 | The Jacobian of a generic scalar expression is its derivative | partial | Generic.Scalar | Proved for sums, differences, products, negations, conversions and quotients of constants (C152_jacobian_partial, C152_plain_jacobian_partial, C152_variable). False for quotients with design variables: the division node passes the factor of the dividend to the divisor and the other way round (C152_quotient_counterexample). |
| C153 | Fixed point numbers round towards zero and are exact otherwise | partial | Generic.Fixed | Proved for 8, 16 and 32 bits (C153_sum, C153_product, C153_quotient, C153_conversions) and for conversions of numbers that are not negative between resolutions (C153_convert_partial). False for negative numbers: that conversion is done in uintmax_t (C153_convert_counterexample). 64 bit numbers, whose intermediate products can overflow, are not covered. |
| C154 | Arrays and matrices cross the language border unchanged | partial | Numpy.Props | Proved for sizes below 2^31 and elements the scalar type can hold (C154_matrix_partial, C154_vector_partial, C154_refused, C154_round_trip). False for 64 bit integers passed to a matrix of int, which are cut off without an error (C154_long_counterexample), and for sizes above 2^32, which are cut off too (C154_size_counterexample). Rounding to float and double, byte order and the alignment of the storage are not modelled. |
| C155 | Masks tell where two cameras overlap | partial | Mask.Props | Masks and matrices: C155_matrix. Marked pixels for masks that have the right size already: C155_overlap_partial. Ratios: C155_ratios (for images with at least one pixel; the code divides zero by zero otherwise). False for masks of another size, such as new ones, which keep what they had (C155_mask_counterexample, C155_mask_unchanged), of the distances, to which the length of the ray is added (C155_sample, C155_distance_counterexample), of keypoints outside the image (C155_outside_counterexample) and of copies of masks, which share their pixels (C155_copy_counterexample). |
| C156 | A bag extracted to files and packed again is the same bag | partial | Bag.Props | Images keep their times and come back complete; in order if all seconds have the same number of digits. False otherwise and false of inertial measurements (counterexamples: string order of names, text written to files opened for bytes, time stamps through a double, stamps below one second). |
| C157 | Calibrations exported to other programs say the same | partial | Export.Props | Proved for MSF, for OKVIS with pinhole cameras and four coefficients, for ROVIO with pinhole cameras. False of the image size (OKVIS), of the FOV distortion (OKVIS), of topics in which the image name stands earlier, and of ROVIO with camera names that end in the same letter (counterexamples). |
| C158 | The validator shows pairs of cameras rectified | partial | Validator.Props | Pairs, poses and rectification are proved; the views of a pair whose second camera is to the right are upside down, and the table of errors of a pair always raises (counterexamples). |
| C159 | Printed uncertainties and statistics belong to what they stand beside | partial | Report.Props | Proved for shutters without parameters; with a shutter parameter the uncertainties are printed beside other parameters (counterexample). |
| C160 | Nothing is missing from the report | partial | Report.Props | Pages and figures of the report about cameras and sensors are proved; the figures of the camera report are distinct up to a hundred cameras (counterexample with 101). |
| C161 | The command for inertial sensors takes sensors and models as given | partial | Visual.Props | Pairing, reference sensor, messages and file names are proved; several sensors without models crash instead of giving the message, and different bags can give the same names (counterexamples). |
| C162 | A calibration is drawn as it is | partial | Visual.Props | Poses are proved for all chains; the outline for pinhole intrinsics. The outline of omnidirectional cameras is wrong: the mirror parameter is taken for the focal length (counterexample). |
| C163 | The measure of focus compares spectra | partial | Visual.Props | Proved for spectra without zeros; a missing frequency makes the measure not a number (C163_missing_frequency). |
| C164 | Matrices, images and keypoints come back from an archive as they were saved | partial | Serial.Props | Proved except for empty matrices with dynamic columns in XML archives, single rows cut out of wider images and the track of a keypoint (counterexamples). |
| C165 | Cameras, targets and observations come back from an archive as they were saved | partial | Serial.Props | Proved for this version of the classes, except for images of a single row cut out of a wider one; masks of version 0 are misread (counterexample). Sharing of pointers is not modelled. |
| C166 | Property trees give back what was set last and nothing else | partial | PTree.Props | Setting, getting, histories, errors and namespaces are proved. Missing: C166_default_counterexample shows that the constant getter with a default writes the default into the tree, also over a value it cannot read; C166_exists_counterexample shows that the test for a name never answers no and throws for names that exist. |
| C167 | The routines for strings, identifiers and comparisons do what they are documented to do on every input | partial | Util.Props | Proved except for three cases: replacing a character by itself does not end (C167_replace_counterexample); replacing from the back replaces an occurrence at the first position that was to be skipped when the number to be skipped is not reached (C167_replace_reverse_counterexample); texts of the right length that are no hexadecimal numbers are accepted as identifiers (C167_identifier_counterexample). |
| C168 | Integers in portable archives are read back on every machine | partial | Util.Props | The round trip is proved on machines that store the high byte first, except for the lowest number of 64 bits (C168_lowest_counterexample). On machines that store the low byte first the test for the order of bytes is always true since the macro is always defined, and every integer below 2^32 is loaded as zero (C168_little_counterexample); integers of eight bytes survive (C168_little_partial). Numbers that need as many bytes as the type can be loaded as other numbers (C168_narrow_counterexample). |
| C169 | Generic matrix and quaternion expressions have the value and the Jacobians of the formula they stand for | partial | Gme.Props | Proved for all trees without left translated unit quaternions and without exponential maps directly over vector expressions. Left translated unit quaternions add no Jacobian (C169_left_translated_counterexample), and over vector expressions the Jacobian of the exponential map leaves out what stands above it (C169_exp_of_vector_counterexample). Points where the exponential map is computed with a series and the logarithm are missing. |
| C170 | The transformation fitted to matched points is the best one | proved | Align.Props | Proved for every decomposition that has the properties Eigen promises (IsSvd, IsEigen); the decompositions themselves are not modelled. |
| C171 | Transformations of points are rigid, and the inverse undoes them | partial | Trafo.Props | Proved for transformations that were set from a translation and angles and inverted once. Inverting twice gives another transformation (C171_inverse_twice_counterexample, C171_plane_twice_counterexample; C171_inverses says which), the inverse of an object made from a matrix reads uninitialised members (C171_inverse_of_matrix_counterexample), and after setTransformationMatrix the inverse is stale (C171_inverse_stale_counterexample). |
| C172 | The mutex excludes, and no thread that waits is forgotten | partial | Mutex.Props | Proved for every schedule without tryLock. tryLock never fails and takes the mutex away from its holder (C172_try_lock_counterexample); a wait on a condition without the mutex throws and blocks every later call (C172_wait_without_lock_counterexample); a wait with a recursive mutex that is locked twice never returns (C172_recursive_wait_counterexample). |
| C173 | An undistorted image is the one the ideal camera would have taken | partial | Undist.Props | The maps, the rectangles, the camera matrix and the factory are proved. Source pixels beyond the range of a short wrap around (C173_far_counterexample), a camera without distortion is changed (C173_identity_counterexample), the mask is neither undistorted nor scaled (C173_mask_counterexample), and with a scale the size of the image of the null undistorter can differ from that of its camera (C173_null_size_counterexample). |
| C174 | The overlap of two cameras counts the pixels that both can see | partial | Fov.Props | The ratios are proved for all masks. The mask is written only if it already has the size of the scaled image; a new mask stays empty (C174_mask_counterexample). |
| C175 | A thread object runs once at a time, and an interrupt ends it | partial | Thr.Props | Proved as trace refinement for every schedule in which the object is started only when it is not busy and the system can create threads. Otherwise: a start without waiting, or two starts at once, run the object twice and end the program (C175_start_busy_counterexample, C175_two_starts_counterexample); a failed creation leaves it busy for ever (C175_create_counterexample); an interrupt during process() is lost if the cycle time is eternal (C175_lost_interrupt_counterexample); a spurious wake-up makes wait return true too early (C175_spurious_counterexample). |
| C176 | Time stamps convert to the system type, and timers measure the time between start and stop | partial | Stamp.Props | Proved for times from zero to the end of time_t. Negative times give an invalid timespec (C176_negative_counterexample), larger ones undefined behaviour (C176_huge_counterexample); a timer that is stopped twice counts the first interval twice (C176_stop_twice_counterexample). |
| C177 | Every logging statement prints exactly when the level and the streams say so, and no call blocks for ever | partial | LogFlag.Props | The switches are right in every quiescent state (C177_quiescent) of every schedule, and the settings are what the calls say (C177_level, C177_streams). That every call comes back is false: enableNamedStream and initializeLogLocation take the two mutexes in opposite orders (C177_deadlock_counterexample); C177_progress_partial proves that this is the only way to block. |
| C178 | Log messages arrive whole, once, in order, and in the format asked for | partial | LogPrint.Props | Messages arrive whole after every history (C178_message, C178_history), formats are split without loss and filled in (C178_split, C178_line, C178_unknown, C178_default). Delivery once and in order is proved while the logger returns normally, exclusion while it throws only std::exception: otherwise the thread loses its next message (C178_alien_counterexample). A failed conversion loses the message (C178_failed_counterexample). |
| C179 | A depth camera maps points to keypoints, derivatives and back | partial | Depth.Props | Projection and validity (C179_project), that the keypoint determines the point (C179_recover), parameters, archives and histories (C179_parameters, C179_history) are proved. The rest of the statement is false: the distortion has no effect, the overload with derivatives reads an empty matrix, back projection always fails, the derivatives of the intrinsics are zero, and the inverse depth depends on the scale of homogeneous coordinates (the C179 counterexamples). |
| C180 | A linear solver that is used again solves the matrix it is given | partial | Reuse.Props | Proved: with init before each change of the pattern, every solution of every history hands exactly its matrix to the factorization and stays inside its buffers; the blown up ordering is a permutation and keeps blocks together; there is room for orderings, workspace and block structure after every history; the written pattern is symmetric. False in general, with counterexamples: changing the pattern without init reads column pointers never written, writes behind the end or factorizes another matrix; a matrix without columns writes through a null pointer; a structure without columns loses its arrays. |
| C181 | Rolling shutter observations are weighted by the covariance of their error | partial | RsCov.Props | Proved: the square root, the error and the weight for every positive definite covariance and every history (C181_sqrt, C181_weight), the plain error at rest (C181_still), and that the map is the derivative of the error while the camera is oriented as the scene (C181_map_partial). False in general, with counterexamples: for a turned camera the map leaves out the rotation from the scene to the camera; nothing is known of the weight if the image moves back one row per row; without a spline the covariance of the keypoint is not used. |
| C182 | The target that is printed is the one the detector looks for | partial | Printed.Cases, Printed.Props, Printed.Read | Proved for every view that keeps lines parallel: the cells that are printed (C182_cells), the word read from each of the four corners (C182_read), the identifier and the corners with their points on the target (C182_found), the equality of the two code tables (C182_table), when a page is printed (C182_printable), and the checkerboard (C182_boxes, C182_corners). False in general, with counterexamples: in perspective other cells are read, since they are interpolated bilinearly; without the optional list of identifiers to skip no page is printed; tags without gaps are printed but the target refuses them. |
| C183 | Random numbers repeat after a seed and stay within their bounds | partial | Random.Props | Proved for all engines, histories and bounds whose difference is an int; seeds are reduced to 32 bits and far apart integer bounds overflow (counterexamples). |
| C184 | The simple optimization problem deletes what it owns exactly once | partial | Simple.Props | Proved for programs that hand each object to at most one owner; an error term added twice as owned is deleted twice, and the adapter does not compute minimal differences (counterexamples). |
| C185 | The dense solver solves the same system as the sparse ones | partial | Dense.Props | Proved for every factorization that solves symmetric systems without kernel; success is reported for singular systems too (counterexample). |
| C186 | Eliminating blocks does not change the solution | proved | Schur.Props | For eliminated blocks that are regular and not coupled with each other; coupled ones give a wrong result (counterexample). |
| C187 | The first optimizer keeps a step exactly if it lowers the objective | partial | OldOpt.Props | proved if the linear solver solves every damped system and predicts a decrease. A failure of the solver undoes the last improvement, since the state is reverted although nothing was applied (C187_failure_counterexample). If the last iteration failed, the reported final objective is the one of the state that was given up (C187_final_counterexample). The estimate of the initial damping compares one entry and stores another, and can read outside of a block (C187_lambda_counterexample). optimizeDogLeg is the subject of C188 |
| C188 | The dog leg of the first optimizer stays in its region and ends | partial | OldDog.Props | all but the last sentence is proved, for non-negative objectives. The steepest descent step is too short or too long: the squared norm of the gradient is divided by the squared norm of the matrix times the gradient, so on a linear problem it can raise the objective (C188_cauchy_counterexample). Eliminated variables are not modelled: there the steps have different dimensions |
| C189 | Numerical Jacobians are differences at the given point | partial | NumDiff.Props | proved but for two parts. The estimates by the intrinsics and by the distortion take each column at a point where the parameters of the columns before are smaller by two steps, since the local copy is not reset (C189_intrinsic_counterexample; what is computed instead is C189_intrinsic_partial). After the estimate an error term holds the error of the last perturbed state (C189_stale_counterexample). Rounding is not modelled |
| C190 | The type of a camera in a configuration creates this camera | proved | CamFactory.Props | the 27 supported cameras are listed by their parts; the FOV distortion and the extended unified and double sphere projections exist only without mask and rolling shutter |
| C191 | The file of a sparse matrix holds the matrix | proved | Ccs.Props | All matrices in compressed columns; the sort is any sorted permutation. Values are kept exact (the nine digits of the text are not modelled). |
| C192 | Identifiers from a counter are different and set | proved | Ids.Props | for every number of increments; the hash and the stream operator are not modelled |
| C193 | A vector variable goes one step back | proved | VecDv.Props | for all histories; an update of another size fails an assertion of Eigen and is undefined |
| C194 | The solutions of a quadratic equation are its solutions | partial | Quadratic.Props | proved but for the equation a x^2 = 0: there the second result is 0 / 0, not a number, instead of the solution zero (counterexample). Without a quadratic term only the second result is finite |
| C195 | The covariance recovered from a triangular factor is the inverse | partial | RCov.Props | proved for every range of at least two columns. A range of one column raises, so that the covariance of a scalar variable cannot be recovered (counterexample) |
| C196 | A singleton is one object | partial | Single.Props | proved for one thread, and for any number of threads that start after the object was made. Threads that ask first may each get an object of their own, or an exception (counterexample) |
| C197 | A quadrilateral is projected with the homography of its own corners | partial | Homog.Props | proved for quadrilaterals for which OpenCV finds a homography. For others its empty matrix is read (counterexample) |
| C198 | A matrix of unknowns changes only where its pattern allows | partial | MatDv.Props | proved if the last entry is estimated or memory follows the update. Otherwise an update of the right size is read beyond its end (counterexample) |
| C199 | A copy of a landmark is independent of the original | partial | Lm.Props | proved for programs that do not write through the pointer to a descriptor, and for keypoints with a point. The copy shares its descriptor; a keypoint without a point leaves the landmark half changed, or is read through a null pointer (counterexample) |
| C200 | All kinds of matrices take over the same entries of a dense matrix | partial | Kinds.Props | proved for tolerances that are not negative. For a negative one the compressed matrix uses its absolute value and the others keep all entries (counterexample) |
<!-- END GENERATED -->
