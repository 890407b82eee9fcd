{
 "claims": [
  {
   "property": "C01",
   "status": "proved",
   "theorems": [
    "Kalibr.AslamTime.C01_add_exact",
    "Kalibr.AslamTime.C01_sub_exact",
    "Kalibr.AslamTime.C01_construct"
   ],
   "note": "exact integers; 64-bit sums of 32-bit fields cannot overflow"
  },
  {
   "property": "C02",
   "status": "proved",
   "theorems": [
    "Kalibr.AslamTime.C02_compare",
    "Kalibr.AslamTime.C02_trichotomy",
    "Kalibr.AslamTime.C02_add_mono"
   ],
   "note": ""
  },
  {
   "property": "C03",
   "status": "partial",
   "theorems": [
    "Kalibr.AslamTime.C03_counterexample",
    "Kalibr.AslamTime.C03_fromSec_counterexample",
    "Kalibr.AslamTime.C03_ctor_normal_partial",
    "Kalibr.AslamTime.C03_ctor_total",
    "Kalibr.AslamTime.C03_unique_partial",
    "Kalibr.AslamTime.C03_arith_partial",
    "Kalibr.AslamTime.C03_time_fromSec_counterexample"
   ],
   "note": "false of the code: normalizeSecNSecSigned uses > instead of >=, fromSec leaves negative nanoseconds (counterexamples proved). Proved: totals are always exact, and normalised unless nanoseconds are a positive multiple of 10^9."
  },
  {
   "property": "C04",
   "status": "proved",
   "theorems": [
    "Kalibr.AslamTime.C04_time_roundtrip",
    "Kalibr.AslamTime.C04_duration_roundtrip",
    "Kalibr.AslamTime.C04_sub_add",
    "Kalibr.AslamTime.C04_sub_range_counterexample"
   ],
   "note": "differences for times below 2^31 s (the range operator+ can return); wrong outside that range (counterexample proved)"
  },
  {
   "property": "C05",
   "status": "partial",
   "theorems": [
    "Kalibr.Archive.C05_roundtrip_partial",
    "Kalibr.Archive.C05_predef_counterexample",
    "Kalibr.Archive.C05_min_counterexample"
   ],
   "note": "false in the real little-endian build: #ifdef BOOST_ENDIAN_BIG_BYTE is always true with Boost.Predef, so 5 is read back as 0; writing INT64_MIN is undefined (both counterexamples proved). Proved for builds whose symbol matches the machine, across machines and stream flags."
  },
  {
   "property": "C06",
   "status": "partial",
   "theorems": [
    "Kalibr.Archive.C06_width_partial",
    "Kalibr.Archive.C06_framing",
    "Kalibr.Archive.C06_sign_counterexample",
    "Kalibr.Archive.C06_sequence_partial"
   ],
   "note": "framing and width check proved for every build; value sequences for builds whose endianness symbol matches the machine. 40000 read into int16 gives -25536 without an exception (counterexample proved)."
  },
  {
   "property": "C07",
   "status": "partial",
   "theorems": [
    "Kalibr.JobQueue.C07_taken_in_order",
    "Kalibr.JobQueue.C07_once",
    "Kalibr.JobQueue.C07_not_lost",
    "Kalibr.JobQueue.C07_progress",
    "Kalibr.JobQueue.C07_one_worker",
    "Kalibr.JobQueue.C07_two_workers_counterexample",
    "Kalibr.JobQueue.C07_no_ub"
   ],
   "note": "For every interleaving: jobs are taken from the queue in scheduling order, each is executed at most once, none is lost, and the workers finish all scheduled jobs in a bounded number of their steps when not stopped; with one worker start and completion order equal the scheduling order. With several workers the call of a job can be overtaken between taking and calling it: counterexample."
  },
  {
   "property": "C08",
   "status": "proved",
   "theorems": [
    "Kalibr.JobQueue.C08_wait_means_done",
    "Kalibr.JobQueue.C08_no_lost_wakeup"
   ],
   "note": "For every reachable state of every interleaving, also with stop and spurious wakeups: a returned call has all earlier jobs finished, a sleeping call has work left that will wake it."
  },
  {
   "property": "C09",
   "status": "partial",
   "theorems": [
    "Kalibr.MatArchive.C09_round_trip_partial",
    "Kalibr.MatArchive.C09_round_trip_empty_partial",
    "Kalibr.MatArchive.C09_counterexample"
   ],
   "note": "proved for every content below 4 GiB per entry, any selection of names on both sides and any target archive; false for larger matrices whose shape still fits the 32-bit fields (counterexample proved)."
  },
  {
   "property": "C10",
   "status": "partial",
   "theorems": [
    "Kalibr.MatArchive.C10_counterexample_clear",
    "Kalibr.MatArchive.C10_counterexample_kind",
    "Kalibr.MatArchive.C10_last_value_partial"
   ],
   "note": "false of the code: clear(name) keeps strings, setScalar/setVector/createMatrix keep a string of the same name (counterexamples proved). Proved for every other history."
  },
  {
   "property": "C11",
   "status": "partial",
   "theorems": [
    "Kalibr.MatArchive.C11_names_partial",
    "Kalibr.MatArchive.C11_counterexample"
   ],
   "note": "proved for setScalar, setString, setMatrix, setVector; false for createMatrix, which does not check the name (counterexample proved)."
  },
  {
   "property": "C12",
   "status": "partial",
   "theorems": [
    "Kalibr.MatArchive.C12_sizes_partial",
    "Kalibr.MatArchive.C12_counterexample"
   ],
   "note": "false of the code: sizeMatrices counts strings (counterexample proved). Proved: sizeStrings right; the others exactly when the two counts agree."
  },
  {
   "property": "C13",
   "status": "proved",
   "theorems": [
    "Kalibr.UnionFind.C13_union_find",
    "Kalibr.UnionFind.C13_connect_returns_root"
   ],
   "note": "every element count and history; absence of unbounded recursion and out-of-range access included"
  },
  {
   "property": "C14",
   "status": "proved",
   "theorems": [
    "Kalibr.Tag.C14_nearest",
    "Kalibr.Tag.C14_no_codes"
   ],
   "note": "grids of at most 64 cells (larger ones are undefined, C16_too_large)"
  },
  {
   "property": "C15",
   "status": "proved",
   "theorems": [
    "Kalibr.Tag.C15_corrects"
   ],
   "note": ""
  },
  {
   "property": "C16",
   "status": "proved",
   "theorems": [
    "Kalibr.Tag.C16_rotation",
    "Kalibr.Tag.C16_too_large"
   ],
   "note": ""
  },
  {
   "property": "C17",
   "status": "partial",
   "theorems": [
    "Kalibr.Corrector.C17_hull_partial",
    "Kalibr.Corrector.C17_counterexample"
   ],
   "note": "everything proved except strictness of the slopes, which is false of the code: collinear samples are all kept (counterexample proved)."
  },
  {
   "property": "C18",
   "status": "proved",
   "theorems": [
    "Kalibr.Corrector.C18_not_ahead"
   ],
   "note": "exact arithmetic over any linearly ordered field"
  },
  {
   "property": "C19",
   "status": "partial",
   "theorems": [
    "Kalibr.Corrector.C19_reads_in_range_partial",
    "Kalibr.Corrector.C19_counterexample"
   ],
   "note": "false of the code: the midpoint index is stale when the hull collapses to two points (counterexample proved: out-of-range read). Proved for three or more hull points, and for two with index 0."
  },
  {
   "property": "C20",
   "status": "proved",
   "theorems": [
    "Kalibr.Corrector.C20_backwards_rejected"
   ],
   "note": ""
  },
  {
   "property": "C21",
   "status": "proved",
   "theorems": [
    "Kalibr.Timer.C21_refines",
    "Kalibr.Timer.C21_handles",
    "Kalibr.Timer.C21_stop_records",
    "Kalibr.Timer.C21_wrong_state_raises"
   ],
   "note": "clock readings are inputs; accumulator statistics other than the count are not modelled"
  },
  {
   "property": "C22",
   "status": "partial",
   "theorems": [
    "Kalibr.Optimizer.C22_final_cost",
    "Kalibr.Optimizer.C22_non_increasing",
    "Kalibr.Optimizer.C22_reported_cost_partial",
    "Kalibr.Optimizer.C22_counterexample"
   ],
   "note": "cost monotonicity proved for every policy that reverts; that the variables left behind have the reported cost is proved unless a zero-dimensional active variable was overwritten before (counterexample proved)."
  },
  {
   "property": "C23",
   "status": "proved",
   "theorems": [
    "Kalibr.Optimizer.C23_terminates",
    "Kalibr.Optimizer.C23_deterministic",
    "Kalibr.Optimizer.C23_budget"
   ],
   "note": ""
  },
  {
   "property": "C24",
   "status": "partial",
   "theorems": [
    "Kalibr.Optimizer.C24_indices_tile_partial",
    "Kalibr.Optimizer.C24_raises",
    "Kalibr.Optimizer.C24_counterexample",
    "Kalibr.Optimizer.C24_never_active"
   ],
   "note": "tiling of active variables and error terms proved; false for inactive variables: a deactivated variable keeps its old index (counterexample proved)."
  },
  {
   "property": "C25",
   "status": "partial",
   "theorems": [
    "Kalibr.Optimizer.C25_own_segment",
    "Kalibr.Optimizer.C25_step_defined",
    "Kalibr.Optimizer.C25_revert_partial",
    "Kalibr.Optimizer.C25_revert_all",
    "Kalibr.Optimizer.C25_counterexample"
   ],
   "note": "segments and revert proved for variables of positive dimension; false for zero-dimensional ones (counterexample proved)."
  },
  {
   "property": "C26",
   "status": "proved",
   "theorems": [
    "Kalibr.Jacobian.C26_ordered",
    "Kalibr.Jacobian.C26_add",
    "Kalibr.Jacobian.C26_add_refused",
    "Kalibr.Jacobian.C26_addBlock",
    "Kalibr.Jacobian.C26_chain",
    "Kalibr.Jacobian.C26_lookup",
    "Kalibr.Jacobian.C26_dense"
   ],
   "note": "exact arithmetic; block indices told apart by active variables (what C24 establishes) and unchanged during use; a container is not added to itself."
  },
  {
   "property": "C27",
   "status": "partial",
   "theorems": [
    "Kalibr.CCM.C27_new",
    "Kalibr.CCM.C27_history",
    "Kalibr.CCM.C27_appendJacobians",
    "Kalibr.CCM.C27_toDense",
    "Kalibr.CCM.C27_value",
    "Kalibr.CCM.C27_products",
    "Kalibr.CCM.C27_fromDense",
    "Kalibr.CCM.C27_clear_counterexample",
    "Kalibr.CCM.C27_fromDense_counterexample",
    "Kalibr.CCM.C27_init_counterexample"
   ],
   "note": "Any history of Jacobian appends and diagonal pushes, updates and pops keeps the arrays well formed with the intended dense meaning, and dense expansion, access and products agree with it. False for clear (pointers sized by rows), for taking over a dense matrix while a diagonal is pushed and for init of a used object: counterexamples."
  },
  {
   "property": "C28",
   "status": "proved",
   "theorems": [
    "Kalibr.CCM.C28_push_updates_pop",
    "Kalibr.CCM.C28_push",
    "Kalibr.CCM.C28_misuse"
   ],
   "note": "Push, any number of updates, pop is the identity on the object; the pushed matrix means [M diag]; misuse raises."
  },
  {
   "property": "C29",
   "status": "proved",
   "theorems": [
    "Kalibr.Threads.C29_split",
    "Kalibr.Threads.C29_defined",
    "Kalibr.Threads.C29_result",
    "Kalibr.Threads.C29_each_once",
    "Kalibr.Threads.C29_no_ub"
   ],
   "note": "every interleaving; number of terms fits an int; exact sums; undefined for no terms and several threads (C29_defined)"
  },
  {
   "property": "C30",
   "status": "partial",
   "theorems": [
    "Kalibr.Problem.C30_bookkeeping_partial",
    "Kalibr.Problem.C30_duplicate_variable",
    "Kalibr.Problem.C30_add_error_raises",
    "Kalibr.Problem.C30_remove_variable_defined",
    "Kalibr.Problem.C30_counterexample_rejected_term",
    "Kalibr.Problem.C30_counterexample_repeated_variable"
   ],
   "note": "proved for every history in which no addErrorTerm raised; false after a raise in a debug build (the rejected term stays) and removing a variable mentioned twice by a term uses the deleted term (counterexamples proved)."
  },
  {
   "property": "C31",
   "status": "partial",
   "theorems": [
    "Kalibr.Robust.C31_none",
    "Kalibr.Robust.C31_cauchy",
    "Kalibr.Robust.C31_huber",
    "Kalibr.Robust.C31_gemanMcClure_partial",
    "Kalibr.Robust.C31_gemanMcClure_valid_iff",
    "Kalibr.Robust.C31_gemanMcClure_counterexample",
    "Kalibr.Robust.C31_blakeZisserman_partial",
    "Kalibr.Robust.C31_blakeZisserman_counterexample"
   ],
   "note": "Proved for no estimator, Cauchy and Huber. Geman-McClure: positive and non-increasing but the weight at zero is 1/sigma^2 (valid iff sigma^2 = 1); Blake-Zisserman: in (0,1), non-increasing, equals wCut at the cut, but never 1 at zero. Both deviations are proved."
  },
  {
   "property": "C32",
   "status": "partial",
   "theorems": [
    "Kalibr.TrustRegion.C32_dogleg_in_region_partial",
    "Kalibr.TrustRegion.C32_dogleg_on_path_partial",
    "Kalibr.TrustRegion.C32_dogleg_counterexample",
    "Kalibr.TrustRegion.C32_damping_positive"
   ],
   "note": "Dog leg: for every history of calls without a failure of the linear solver the step is on the dog-leg path and not longer than the radius; after a failure the next call returns the vector of the failed solve (counterexample). Levenberg-Marquardt: damping positive for every history."
  },
  {
   "property": "C33",
   "status": "partial",
   "theorems": [
    "Kalibr.Sparse.C33_toDense",
    "Kalibr.Sparse.C33_at",
    "Kalibr.Sparse.C33_writeBlock",
    "Kalibr.Sparse.C33_transpose",
    "Kalibr.Sparse.C33_transposeInto_partial",
    "Kalibr.Sparse.C33_transposeInto_counterexample",
    "Kalibr.Sparse.C33_transposeInto_refused",
    "Kalibr.Sparse.C33_add",
    "Kalibr.Sparse.C33_mulVec",
    "Kalibr.Sparse.C33_rightMulVec",
    "Kalibr.Sparse.C33_mul",
    "Kalibr.Sparse.C33_multiplyInto",
    "Kalibr.Sparse.C33_multiplyInto_counterexample",
    "Kalibr.Sparse.C33_scale",
    "Kalibr.Sparse.C33_slice"
   ],
   "note": "Proved for writing blocks, element access, dense conversion, transpose, addition, matrix and vector products, scaling and slices. False for transpose and multiply into a destination that already holds blocks: counterexamples proved, with the exact result proved instead."
  },
  {
   "property": "C34",
   "status": "partial",
   "theorems": [
    "Kalibr.Sparse.C34_fillCCS",
    "Kalibr.Sparse.C34_fillCCS_upper_partial",
    "Kalibr.Sparse.C34_fillCCS_upper_counterexample",
    "Kalibr.Sparse.C34_values",
    "Kalibr.Sparse.C34_fillUpperTriangleCCS",
    "Kalibr.Sparse.C34_blockStructure"
   ],
   "note": "Full export, values-only export, symmetric export from the upper triangle and block structure proved. fillCCS with upperTriangle is proved for matrices that store no block below the diagonal; a block below the diagonal is exported in full (counterexample proved)."
  },
  {
   "property": "C35",
   "status": "proved",
   "theorems": [
    "Kalibr.Batch.C35_contents",
    "Kalibr.Batch.C35_ordering",
    "Kalibr.Batch.C35_group",
    "Kalibr.Batch.C35_flat_index",
    "Kalibr.Batch.C35_set_ordering",
    "Kalibr.Batch.C35_error_terms",
    "Kalibr.Batch.C35_permute",
    "Kalibr.Batch.C35_permute_missing",
    "Kalibr.Batch.C35_permute_terms",
    "Kalibr.Batch.C35_permute_length",
    "Kalibr.Batch.C35_permute_hangs",
    "Kalibr.Batch.C35_save_restore"
   ],
   "note": "error-term dependency lists are inputs"
  },
  {
   "property": "C36",
   "status": "proved",
   "theorems": [
    "Kalibr.Merged.C36_variables",
    "Kalibr.Merged.C36_flat_index",
    "Kalibr.Merged.C36_ordering",
    "Kalibr.Merged.C36_lookup",
    "Kalibr.Merged.C36_permute",
    "Kalibr.Merged.C36_permute_problems",
    "Kalibr.Merged.C36_errors",
    "Kalibr.Merged.C36_add",
    "Kalibr.Merged.C36_remove",
    "Kalibr.Merged.C36_other_calls",
    "Kalibr.Merged.C36_set_ordering"
   ],
   "note": "histories in which every add returned; batches built through their own interface and not modified while live"
  },
  {
   "property": "C37",
   "status": "partial",
   "theorems": [
    "Kalibr.Merged.C37_counterexample",
    "Kalibr.Merged.C37_failed_add_partial"
   ],
   "note": "false of the code: a rejected batch leaves variables, counters and groups behind (counterexamples proved for a group clash and for a shared error term). Proved in every state: live batches, saved values and parameters unchanged; a null batch changes nothing."
  },
  {
   "property": "C38",
   "status": "proved",
   "theorems": [
    "Kalibr.Estimator.C38_rejected",
    "Kalibr.Estimator.C38_accepted",
    "Kalibr.Estimator.C38_decision"
   ],
   "note": "optimiser and linear solver are an oracle; histories in which every addBatch returned. Also the exact acceptance rule and the exact layout after a rejection."
  },
  {
   "property": "C39",
   "status": "proved",
   "theorems": [
    "Kalibr.Estimator.C39_order",
    "Kalibr.Estimator.C39_after_solve"
   ],
   "note": "including the start column handed to the linear solver"
  },
  {
   "property": "C40",
   "status": "partial",
   "theorems": [
    "Kalibr.Grid.C40_linear_index_bijection",
    "Kalibr.Grid.C40_stepping_visits_all",
    "Kalibr.Grid.C40_constructor",
    "Kalibr.Grid.C40_point_in_cell",
    "Kalibr.Grid.C40_cells_independent",
    "Kalibr.Grid.C40_too_large_raises",
    "Kalibr.Grid.C40_reset",
    "Kalibr.Grid.C40_negative_index_counterexample",
    "Kalibr.Grid.C40_centre_partial",
    "Kalibr.Grid.C40_centre_counterexample",
    "Kalibr.Grid.C40_integral_point_in_cell",
    "Kalibr.Grid.C40_integral_centre_counterexample"
   ],
   "note": "Proved for every number of dimensions and cells: a point in range lies in the cell of its index, out of range raises; the linear index is a bijection; stepping visits every cell once and stops; cells are independent; too large indices raise. False in the code: negative indices are accepted (out of bounds read), centres of a partial last cell can be out of range, integral centres are rounded into another cell: counterexamples."
  },
  {
   "property": "C41",
   "status": "partial",
   "theorems": [
    "Kalibr.BSpline.C41_weights_partial",
    "Kalibr.BSpline.C41_derivative_weights_partial",
    "Kalibr.BSpline.C41_constant_partial",
    "Kalibr.BSpline.C41_counterexample"
   ],
   "note": "false of the code at t_max when the last knot segment is empty: all weights are 0 (counterexample proved). Proved for every order, nondecreasing knots and time otherwise; also derivative weights sum to 0."
  },
  {
   "property": "C42",
   "status": "partial",
   "theorems": [
    "Kalibr.BSpline.C42_eval_partial",
    "Kalibr.BSpline.C42_eval_end_partial",
    "Kalibr.BSpline.C42_counterexample"
   ],
   "note": "equality with the Cox-de Boor spline proved for every order/knots/time outside the 1e-10 snapping zone or inside a non-empty last segment; false at t_max with an empty last segment (counterexample proved)."
  },
  {
   "property": "C43",
   "status": "partial",
   "theorems": [
    "Kalibr.BSpline.C43_valid_interval",
    "Kalibr.BSpline.C43_in_range",
    "Kalibr.BSpline.C43_bracket_partial",
    "Kalibr.BSpline.C43_counterexample"
   ],
   "note": "range, window and raise conditions proved for every time; bracketing fails only for times within 1e-10 of t_max outside the last segment (counterexample proved)."
  },
  {
   "property": "C44",
   "status": "partial",
   "theorems": [
    "Kalibr.BSpline.C44_same_length_partial",
    "Kalibr.BSpline.C44_counts_partial",
    "Kalibr.BSpline.C44_counterexample"
   ],
   "note": "false of the code: the loop is bounded by the size of the old knot vector (accepts a decreasing sequence on a fresh spline, reads out of range on a longer one; counterexample proved). Proved when old and new lengths agree, and the count checks always."
  },
  {
   "property": "C45",
   "status": "partial",
   "theorems": [
    "Kalibr.BSpline.C45_uniform_partial",
    "Kalibr.BSpline.C45_counterexample"
   ],
   "note": "false of the code for non-uniform knots: basis matrices are not removed (counterexample proved). Proved for uniform knots, all derivatives."
  },
  {
   "property": "C46",
   "status": "partial",
   "theorems": [
    "Kalibr.BSpline.C46_integral_antisymm",
    "Kalibr.BSpline.C46_integral_additive",
    "Kalibr.BSpline.C46_derivative_partial",
    "Kalibr.BSpline.C46_iterated_derivative_partial",
    "Kalibr.BSpline.C46_integral_exact_partial",
    "Kalibr.BSpline.C46_integral_error_partial",
    "Kalibr.BSpline.C46_counterexample"
   ],
   "note": "n-th derivative inside every segment; integral antisymmetric and additive always, exact up to the dropped remainders (error bound 2e-16*B, exact when none is dropped; counterexample for exactness proved)."
  },
  {
   "property": "C47",
   "status": "proved",
   "theorems": [
    "Kalibr.BSpline.C47_counts",
    "Kalibr.BSpline.C47_counts_inverse"
   ],
   "note": ""
  },
  {
   "property": "C48",
   "status": "proved",
   "theorems": [
    "Kalibr.Kin.C48_product_is_quaternion_product",
    "Kalibr.Kin.C48_matrix_of_product",
    "Kalibr.Kin.C48_rotate_is_matrix",
    "Kalibr.Kin.C48_inverse_is_transpose",
    "Kalibr.Kin.C48_inverse",
    "Kalibr.Kin.C48_monoid",
    "Kalibr.Kin.C48_unit_closed",
    "Kalibr.Kin.C48_unit_gives_rotation",
    "Kalibr.Kin.C48_double_cover",
    "Kalibr.Kin.C48_multiplication_matrices"
   ],
   "note": "All quaternions; unit quaternions where a rotation matrix is involved."
  },
  {
   "property": "C49",
   "status": "proved",
   "theorems": [
    "Kalibr.Kin.C49_round_trip",
    "Kalibr.Kin.C49_quaternion_recovered"
   ],
   "note": "Every rotation matrix; every unit quaternion is recovered up to its sign."
  },
  {
   "property": "C50",
   "status": "proved",
   "theorems": [
    "Kalibr.Kin.C50_constructor_normalises",
    "Kalibr.Kin.C50_closed",
    "Kalibr.Kin.C50_matrix_of_product",
    "Kalibr.Kin.C50_matrix_of_identity",
    "Kalibr.Kin.C50_matrix_of_inverse",
    "Kalibr.Kin.C50_group_laws",
    "Kalibr.Kin.C50_action_is_matrix",
    "Kalibr.Kin.C50_action",
    "Kalibr.Kin.C50_isometry",
    "Kalibr.Kin.C50_from_matrix",
    "Kalibr.Kin.C50_matrices"
   ],
   "note": "Every transformation built by the constructors and operations; exact arithmetic."
  },
  {
   "property": "C51",
   "status": "partial",
   "theorems": [
    "Kalibr.Kin.C51_matrix_is_rotation",
    "Kalibr.Kin.C51_vector_round_trip_partial",
    "Kalibr.Kin.C51_free_functions_round_trip_partial",
    "Kalibr.Kin.C51_half_turn_counterexample",
    "Kalibr.Kin.C51_matrix_round_trip_partial"
   ],
   "note": "Proved for rotation vectors of length at least the threshold and below a half turn, and for every rotation matrix except half turns. Half turns are lost (mx2AxisAngle returns zero): counterexample."
  },
  {
   "property": "C52",
   "status": "partial",
   "theorems": [
    "Kalibr.Kin.C52_ypr_rates",
    "Kalibr.Kin.C52_zyx_rates",
    "Kalibr.Kin.C52_zxy_rates",
    "Kalibr.Kin.C52_ypr_jacobian",
    "Kalibr.Kin.C52_zyx_jacobian",
    "Kalibr.Kin.C52_zxy_jacobian",
    "Kalibr.Kin.C52_rodrigues_rates",
    "Kalibr.Kin.C52_rodrigues_jacobian",
    "Kalibr.Kin.C52_rotation_vector_rates_partial",
    "Kalibr.Kin.C52_rotation_vector_jacobian_partial"
   ],
   "note": "Rates and Jacobians proved for yaw-pitch-roll, ZYX, ZXY and Rodrigues parameters at every value, also at the singularities. For rotation vectors rates and Jacobian are proved above the threshold 1e-14; at zero the code evaluates 0/0."
  },
  {
   "property": "C53",
   "status": "partial",
   "theorems": [
    "Kalibr.Kin.C53_rotation_partial",
    "Kalibr.Kin.C53_angles_add_partial",
    "Kalibr.Kin.C53_below_threshold",
    "Kalibr.Kin.C53_negative_angles_counterexample"
   ],
   "note": "The matrix is the rotation about the axis by the angle for angles above the threshold and zero; every negative angle gives the identity (counterexample), angles below 1e-14 too."
  },
  {
   "property": "C54",
   "status": "proved",
   "theorems": [
    "Kalibr.Camera.C54_ray",
    "Kalibr.Camera.C54_keypoint",
    "Kalibr.Camera.C54_no_distortion",
    "Kalibr.Camera.C54_fov",
    "Kalibr.Camera.C54_equidistant_counterexample"
   ],
   "note": "Both directions, for every distortion whose undistort inverts distort at the point concerned; instantiated without distortion (C54_no_distortion) and for the field of view distortion (C54_fov). The equidistant distortion does not meet the hypothesis at the image centre (C54_equidistant_counterexample), see C60."
  },
  {
   "property": "C55",
   "status": "partial",
   "theorems": [
    "Kalibr.Camera.C55_radtan_point",
    "Kalibr.Camera.C55_radtan_parameters",
    "Kalibr.Camera.C55_equidistant_point_partial",
    "Kalibr.Camera.C55_equidistant_parameters_partial",
    "Kalibr.Camera.C55_equidistant_centre_counterexample",
    "Kalibr.Camera.C55_fov_point_partial",
    "Kalibr.Camera.C55_ds_point",
    "Kalibr.Camera.C55_ds_intrinsics",
    "Kalibr.Camera.C55_ds_ray",
    "Kalibr.Camera.C55_eucm_point",
    "Kalibr.Camera.C55_eucm_intrinsics_partial",
    "Kalibr.Camera.C55_eucm_intrinsics_counterexample",
    "Kalibr.Camera.C55_eucm_ray",
    "Kalibr.Camera.C55_fov_parameters_partial",
    "Kalibr.Camera.C55_fov_parameters_counterexample",
    "Kalibr.Camera.C55_omni_point",
    "Kalibr.Camera.C55_omni_intrinsics",
    "Kalibr.Camera.C55_omni_distortion",
    "Kalibr.Camera.C55_omni_ray",
    "Kalibr.Camera.C55_omni_homogeneous",
    "Kalibr.Camera.C55_pinhole_homogeneous",
    "Kalibr.Camera.C55_pinhole_point",
    "Kalibr.Camera.C55_pinhole_intrinsics",
    "Kalibr.Camera.C55_pinhole_distortion",
    "Kalibr.Camera.C55_pinhole_ray_partial",
    "Kalibr.Camera.C55_pinhole_ray_counterexample",
    "Kalibr.Camera.C55_fov_parameter_partial",
    "Kalibr.Camera.C55_fov_parameter_counterexample"
   ],
   "note": "Point, intrinsics, distortion parameter, homogeneous point and back-projection Jacobians of the pinhole, omnidirectional, extended unified and double sphere projections and of the radtan, equidistant and field of view distortions (domains stated in the theorems; the parameter of the field of view distortion outside the disc of small radii, C55_fov_parameters_partial). False in the code: the equidistant Jacobian at the image centre is NaN, the field of view parameter Jacobian next to w = 0 and at small radii (C55_fov_parameters_counterexample), the pinhole back-projection Jacobian (diag(1/fu, 1/fv) on the wrong side) and the extended unified intrinsics Jacobian (both rows use fu)."
  },
  {
   "property": "C56",
   "status": "partial",
   "theorems": [
    "Kalibr.Camera.C56_ds_partial",
    "Kalibr.Camera.C56_eucm_partial",
    "Kalibr.Camera.C56_omni_partial",
    "Kalibr.Camera.C56_pinhole_partial",
    "Kalibr.Camera.C56_infinity_counterexample",
    "Kalibr.Camera.C56_pinhole_jacobian_counterexample",
    "Kalibr.Camera.C56_pinhole_jacobian_partial"
   ],
   "note": "Holds at non-zero scale for all four projections, with the pinhole overload that returns a Jacobian as the exception: it ignores the sign of the scale for the validity flag. False in the code for points at infinity and for that overload."
  },
  {
   "property": "C57",
   "status": "proved",
   "theorems": [
    "Kalibr.Camera.C57_ray",
    "Kalibr.Camera.C57_keypoint",
    "Kalibr.Camera.C57_no_distortion"
   ],
   "note": "Both directions for every mirror parameter >= 0 and every distortion whose undistort inverts distort at the point concerned; unconditional without distortion (C57_no_distortion). The keypoint direction excludes only the rim of the reachable circle."
  },
  {
   "property": "C58",
   "status": "partial",
   "theorems": [
    "Kalibr.Target.C58_index",
    "Kalibr.Target.C58_grid_point",
    "Kalibr.Target.C58_coordinates_partial",
    "Kalibr.Target.C58_coordinates_counterexample",
    "Kalibr.Target.C58_pointer_counterexample",
    "Kalibr.Target.C58_pointer_invalid_counterexample",
    "Kalibr.Target.C58_container_counterexample"
   ],
   "note": "The index numbering is a bijection and lookup agrees with it. Reported grid coordinates are in the order column, row instead of row, column; getPointDataPointer has an inverted assertion, so it raises on every valid index, reads out of bounds on invalid ones, and no design variable container can be built."
  },
  {
   "property": "C59",
   "status": "proved",
   "theorems": [
    "Kalibr.Target.C59_lists",
    "Kalibr.Target.C59_image_point",
    "Kalibr.Target.C59_reprojection"
   ],
   "note": "Refinement to a map from indices to points, for every history of calls including raising ones."
  },
  {
   "property": "C60",
   "status": "partial",
   "theorems": [
    "Kalibr.Camera.C60_radtan_partial",
    "Kalibr.Camera.C60_radtan_centre",
    "Kalibr.Camera.C60_radtan_counterexample",
    "Kalibr.Camera.C60_equidistant_partial",
    "Kalibr.Camera.C60_equidistant_centre_counterexample",
    "Kalibr.Camera.C60_fov_centre"
   ],
   "note": "radtan and equidistant: an exact solution is a fixed point where the Jacobian is regular and the update is defined. False in the code: at the image centre the equidistant undistort returns NaN, and radtan where the Jacobian is singular."
  },
  {
   "property": "C61",
   "status": "partial",
   "theorems": [
    "Kalibr.Permute.C61_permutation_partial",
    "Kalibr.Permute.C61_elements_kept",
    "Kalibr.Permute.C61_wrong_length",
    "Kalibr.Permute.C61_in_range",
    "Kalibr.Permute.C61_out_of_range",
    "Kalibr.Permute.C61_counterexample"
   ],
   "note": "proved for permutations and wrong lengths; false for other index vectors: [0,0] never returns, [1,5] raises after swapping, [1,1] is accepted (counterexample proved). Elements are kept in every case."
  },
  {
   "property": "C62",
   "status": "partial",
   "theorems": [
    "Kalibr.Merged.C62_save_restore_partial",
    "Kalibr.Merged.C62_counterexample"
   ],
   "note": "proved for histories without clear; false after clear, which keeps saved values of forgotten variables (counterexample proved)."
  },
  {
   "property": "C63",
   "status": "partial",
   "theorems": [
    "Kalibr.Estimator.C63_counterexample",
    "Kalibr.Estimator.C63_failed_call_partial"
   ],
   "note": "false of the code (three counterexamples proved); proved: a raising call never changes the stored estimates."
  },
  {
   "property": "C64",
   "status": "partial",
   "theorems": [
    "Kalibr.MatArchive.C64_counterexample",
    "Kalibr.MatArchive.C64_keeps_partial"
   ],
   "note": "false of the code: append writes nothing (counterexample proved). Proved: the existing entries are kept."
  },
  {
   "property": "C65",
   "status": "partial",
   "theorems": [
    "Kalibr.MatArchive.C65_bad_start_partial",
    "Kalibr.MatArchive.C65_counterexample"
   ],
   "note": "false of the code: reading past the end is not detected (counterexample proved). Proved: a wrong start byte is rejected."
  },
  {
   "property": "C66",
   "status": "partial",
   "theorems": [
    "Kalibr.Tag.C66_distance_partial",
    "Kalibr.Tag.C66_counterexample"
   ],
   "note": "proved for 16h5, 25h7, 25h9, 36h9 and 36h11; false for 16h5_other and 36h11_other (counterexample proved)."
  },
  {
   "property": "C67",
   "status": "proved",
   "theorems": [
    "Kalibr.Tag.C67_target_tags"
   ],
   "note": ""
  },
  {
   "property": "C68",
   "status": "partial",
   "theorems": [
    "Kalibr.Optimizer.C68_counterexample",
    "Kalibr.Optimizer.C68_current_cost_partial"
   ],
   "note": "false of the code for reverting policies (counterexample proved); proved for non-reverting ones."
  },
  {
   "property": "C69",
   "status": "partial",
   "theorems": [
    "Kalibr.Optimizer.C69_stops_on_convergence_partial",
    "Kalibr.Optimizer.C69_counterexample"
   ],
   "note": "false of the code after a solver failure (counterexample proved); proved while the solver does not fail."
  },
  {
   "property": "C70",
   "status": "partial",
   "theorems": [
    "Kalibr.Threads.C70_reported_partial",
    "Kalibr.Threads.C70_counterexample"
   ],
   "note": "false of the code: with several threads the exception is sliced to std::exception (counterexample proved). Proved: an exception is never swallowed and none is invented."
  },
  {
   "property": "C71",
   "status": "proved",
   "theorems": [
    "Kalibr.Normal.C71_evaluateHessian",
    "Kalibr.Normal.C71_buildSystem",
    "Kalibr.Normal.C71_initMatrix"
   ],
   "note": "One term and the whole block Cholesky system, with M-estimator weights; the square root is any function with sqrt(w)^2 = w on the weights that occur."
  },
  {
   "property": "C72",
   "status": "proved",
   "theorems": [
    "Kalibr.Sparse.C72_symmPermutation",
    "Kalibr.Sparse.C72_symmPermutation_upper"
   ],
   "note": "Both modes, for a freshly allocated destination."
  },
  {
   "property": "C73",
   "status": "partial",
   "theorems": [
    "Kalibr.Normal.C73_solve_damped",
    "Kalibr.Normal.C73_solve_leaves",
    "Kalibr.Normal.C73_solve_restores_partial",
    "Kalibr.Normal.C73_solve_counterexample"
   ],
   "note": "False of the code: after a solve the diagonal has grown by c^2 - c (counterexample and exact effect proved). That the damped system is the one solved is proved; restoration is proved for conditioners with entries 0 or 1."
  },
  {
   "property": "C74",
   "status": "partial",
   "theorems": [
    "Kalibr.Normal.C74_rhsJtJrhs_stored",
    "Kalibr.Normal.C74_rhsJtJrhs_partial",
    "Kalibr.Normal.C74_rhsJtJrhs_counterexample"
   ],
   "note": "False for the block Cholesky solver, which multiplies with the stored upper triangle (counterexample on a built system; exact value proved). Holds if the system is diagonal."
  },
  {
   "property": "C75",
   "status": "partial",
   "theorems": [
    "Kalibr.CCM.C75_builder_partial",
    "Kalibr.CCM.C75_missing_variable_counterexample"
   ],
   "note": "Proved for every order of evaluation when each term fills its container with exactly its active variables; an error term that leaves out an active variable gets its values in the wrong rows (counterexample)."
  },
  {
   "property": "C76",
   "status": "partial",
   "theorems": [
    "Kalibr.JobQueue.C76_stop_takes_no_job",
    "Kalibr.JobQueue.C76_joined_partial",
    "Kalibr.JobQueue.C76_join_counterexample",
    "Kalibr.JobQueue.C76_destructor_partial",
    "Kalibr.JobQueue.C76_destructor_counterexample",
    "Kalibr.JobQueue.C76_destructor_progress"
   ],
   "note": "Proved: no job is started after stop; when all workers returned nothing runs and the rest is still queued in order; the destructor makes progress and waits for the workers that have begun. False in the code: join() can hang (flag set and notified without the mutex), and the destructor can return before a created worker has registered: counterexamples."
  },
  {
   "property": "C77",
   "status": "partial",
   "theorems": [
    "Kalibr.Robust.C77_cost_is_squared_weighted_error",
    "Kalibr.Robust.C77_cost_monotone_partial",
    "Kalibr.Robust.C77_gemanMcClure_counterexample",
    "Kalibr.Robust.C77_blakeZisserman_counterexample"
   ],
   "note": "The cost is the squared norm of the weighted error for all estimators; it grows with the error for no estimator, Cauchy and Huber; proved to fall beyond sigma^2 for Geman-McClure and from some error on for Blake-Zisserman."
  },
  {
   "property": "C78",
   "status": "partial",
   "theorems": [
    "Kalibr.TrustRegion.C78_remembered_costs",
    "Kalibr.TrustRegion.C78_dogleg_partial",
    "Kalibr.TrustRegion.C78_dogleg_counterexample",
    "Kalibr.TrustRegion.C78_damping_grows"
   ],
   "note": "Levenberg-Marquardt: proved. Dog leg: proved when the rejected cost is above the cost before the last accepted step; otherwise get_dJ compares with the wrong cost and the radius can grow (counterexample)."
  },
  {
   "property": "C79",
   "status": "partial",
   "theorems": [
    "Kalibr.TrustRegion.C79_dogleg_partial",
    "Kalibr.TrustRegion.C79_lm_partial",
    "Kalibr.TrustRegion.C79_lm_counterexample"
   ],
   "note": "Dog leg: proved under the same condition, otherwise a stale Gauss-Newton step is used (C78_dogleg_counterexample). Levenberg-Marquardt: proved for the first call and after accepted steps with positive rho; after an accepted step with unchanged cost the system is not rebuilt (counterexample)."
  },
  {
   "property": "C80",
   "status": "partial",
   "theorems": [
    "Kalibr.Kin.C80_update_is_product",
    "Kalibr.Kin.C80_update_partial",
    "Kalibr.Kin.C80_transformation_increment_partial",
    "Kalibr.Kin.C80_reaches_partial"
   ],
   "note": "Proved for zero and for vectors from the threshold 2^-13 on; below it the length error is that of C81."
  },
  {
   "property": "C81",
   "status": "partial",
   "theorems": [
    "Kalibr.Kin.C81_exponential_partial",
    "Kalibr.Kin.C81_small_angle_counterexample",
    "Kalibr.Kin.C81_vector_round_trip_partial",
    "Kalibr.Kin.C81_quaternion_round_trip_partial",
    "Kalibr.Kin.C81_logarithm_counterexample"
   ],
   "note": "Proved from the threshold 2^-13 on. Below it the exponential is too long by less than theta^4/24 (wrong sign in the series) and the logarithm too short (integer quotient 1/6): both deviations proved."
  },
  {
   "property": "C82",
   "status": "partial",
   "theorems": [
    "Kalibr.Kin.C82_ypr_angles",
    "Kalibr.Kin.C82_zyx_angles",
    "Kalibr.Kin.C82_zxy_angles",
    "Kalibr.Kin.C82_rph_angles",
    "Kalibr.Kin.C82_ypr_matrix",
    "Kalibr.Kin.C82_zyx_matrix",
    "Kalibr.Kin.C82_rph_matrix",
    "Kalibr.Kin.C82_zxy_matrix",
    "Kalibr.Kin.C82_rotations",
    "Kalibr.Kin.C82_gimbal_lock_counterexample"
   ],
   "note": "Proved for all angles in range and all rotation matrices except gimbal lock, where the rotation is lost (counterexample)."
  },
  {
   "property": "C83",
   "status": "partial",
   "theorems": [
    "Kalibr.Kin.C83_quaternion_rates",
    "Kalibr.Kin.C83_quaternion_inverse",
    "Kalibr.Kin.C83_rotation_vector_inverse_partial"
   ],
   "note": "Quaternions: proved. Rotation vectors: inverse proved between the threshold 1e-14 and a full turn."
  },
  {
   "property": "C84",
   "status": "partial",
   "theorems": [
    "Kalibr.Kin.C84_slerp_partial",
    "Kalibr.Kin.C84_interpolation_partial"
   ],
   "note": "Proved when the turn between the ends and its elapsed fraction are not below the threshold 2^-13 of the exponential and the times are at least 1e-14 apart."
  },
  {
   "property": "C85",
   "status": "partial",
   "theorems": [
    "Kalibr.Kin.C85_rodrigues_rotation",
    "Kalibr.Kin.C85_rodrigues_parameters_partial",
    "Kalibr.Kin.C85_half_turn_counterexample"
   ],
   "note": "Rotation proved for all parameters; recovery proved for zero and lengths between 1e-14 and 1e14; half turns come back as the identity (counterexample)."
  },
  {
   "property": "C86",
   "status": "proved",
   "theorems": [
    "Kalibr.Camera.C86_ray",
    "Kalibr.Camera.C86_keypoint"
   ],
   "note": "Both directions, for all alpha in [0,1] and beta > 0; the keypoint direction excludes only the rim of the reachable circle."
  },
  {
   "property": "C87",
   "status": "partial",
   "theorems": [
    "Kalibr.Camera.C87_ray_partial",
    "Kalibr.Camera.C87_keypoint_partial",
    "Kalibr.Camera.C87_ray_counterexample",
    "Kalibr.Camera.C87_keypoint_counterexample"
   ],
   "note": "Point to ray for xi >= -2w (w = alpha/(1-alpha) or its inverse); keypoint to ray to keypoint whenever the projection accepts the ray. False in the code: for xi < -2w the field of view test accepts points that are projected to the wrong side (C87_ray_counterexample), and for xi > 0 it rejects rays of valid keypoints (C87_keypoint_counterexample)."
  },
  {
   "property": "C88",
   "status": "partial",
   "theorems": [
    "Kalibr.Target.C88_checkerboard",
    "Kalibr.Target.C88_circlegrid",
    "Kalibr.Target.C88_aprilgrid",
    "Kalibr.Target.C88_checkerboard_distinct",
    "Kalibr.Target.C88_circlegrid_distinct",
    "Kalibr.Target.C88_aprilgrid_distinct",
    "Kalibr.Target.C88_axes_counterexample"
   ],
   "note": "All three boards: positions and distinctness proved. The axes of the checkerboard are swapped with respect to its documentation (counterexample)."
  },
  {
   "property": "C89",
   "status": "partial",
   "theorems": [
    "Kalibr.Target.C89_extraction_partial",
    "Kalibr.Target.C89_stale_flags_counterexample"
   ],
   "note": "Proved for an empty flag vector, as the detector passes it. A reused flag vector keeps stale flags (counterexample)."
  },
  {
   "property": "C90",
   "status": "proved",
   "theorems": [
    "Kalibr.Target.C90_filter",
    "Kalibr.Target.C90_some_remain",
    "Kalibr.Target.C90_share"
   ],
   "note": "Exact set of removed corners, survival of at least one corner and a Chebyshev bound."
  },
  {
   "property": "C91",
   "status": "partial",
   "theorems": [
    "Kalibr.Target.C91_find_partial",
    "Kalibr.Target.C91_stale_pose_counterexample"
   ],
   "note": "Corners, success and pose on success proved. On failure a reused observation keeps the pose of an earlier image (counterexample)."
  },
  {
   "property": "C92",
   "status": "partial",
   "theorems": [
    "Kalibr.Camera.C92_radtan_partial",
    "Kalibr.Camera.C92_radtan_weak",
    "Kalibr.Camera.C92_radtan_strong",
    "Kalibr.Camera.C92_equidistant_partial",
    "Kalibr.Camera.C92_equidistant_weak"
   ],
   "note": "Radial-tangential: general bound under a regularity condition (C92_radtan_partial), and unconditional bounds 1e-14 / 1e-13 for two stated ranges of parameters and points. Equidistant: general contraction bound, and 1e-8 rad up to 45 degrees for coefficients up to 1/20. Missing: parameters and points outside these ranges, where the iteration can diverge (C60_radtan_counterexample)."
  },
  {
   "property": "C93",
   "status": "proved",
   "theorems": [
    "Kalibr.Exp.C93_container",
    "Kalibr.Exp.C93_error_term",
    "Kalibr.Exp.C93_jacobian",
    "Kalibr.Exp.C93_value",
    "Kalibr.Exp.C93_stale_counterexample",
    "Kalibr.Exp.C93_rotation_parameters"
   ],
   "note": "Every node kind of the model, shared nodes with their cached members, any interleaved evaluations and Jacobians of the same nodes; also through the Jacobian container with only the active variables (C93_error_term). Rotation parameters need the parametrisation to be regular, which is proved away from its singularities (C93_rotation_parameters). The evaluation before the Jacobian is needed: C93_stale_counterexample."
  },
  {
   "property": "C94",
   "status": "proved",
   "theorems": [
    "Kalibr.Exp.C94_sufficient",
    "Kalibr.Exp.C94_complete"
   ],
   "note": "Spline nodes are leaves of the same trees. Sufficient: states that agree on the reported variables give the same value. Complete: every block of the Jacobian belongs to a reported variable."
  },
  {
   "property": "C95",
   "status": "partial",
   "theorems": [
    "Kalibr.Exp.C95_revert",
    "Kalibr.Exp.C95_set_counterexample",
    "Kalibr.Exp.C95_matrix_cells"
   ],
   "note": "Proved for every history of updates and reverts. False after the public set of rotations, which leaves the cached rotation matrix behind (C95_set_counterexample)."
  },
  {
   "property": "C96",
   "status": "partial",
   "theorems": [
    "Kalibr.Exp.C96_linear",
    "Kalibr.Exp.C96_quaternion_partial",
    "Kalibr.Exp.C96_mapped_counterexample"
   ],
   "note": "Points, scalars, homogeneous points: full. Rotations: increments of length below a full turn outside the small-angle branch (C96_quaternion_partial). False in the code for the mapped quaternion (C96_mapped_counterexample)."
  },
  {
   "property": "C97",
   "status": "partial",
   "theorems": [
    "Kalibr.Exp.C97_point",
    "Kalibr.Exp.C97_transformation_partial",
    "Kalibr.Exp.C97_zero",
    "Kalibr.Exp.C97_dead_zone_counterexample"
   ],
   "note": "Points: full. Transformations: rotation errors between 1e-10 and pi - 1e-10. False in the code inside the dead zone around the prior, where the rotation error is constant but the Jacobian is not zero (C97_dead_zone_counterexample)."
  },
  {
   "property": "C98",
   "status": "partial",
   "theorems": [
    "Kalibr.Pose.C98_pose",
    "Kalibr.Pose.C98_body_frame",
    "Kalibr.Pose.C98_linear_rates",
    "Kalibr.Pose.C98_angular_rates",
    "Kalibr.Pose.C98_angular_acceleration_partial",
    "Kalibr.Pose.C98_acceleration_counterexample",
    "Kalibr.Pose.C98_pose_round_trip_partial"
   ],
   "note": "pose, body-frame values, linear and angular velocity, linear acceleration proved for all families (rotation vectors above the 1e-14 threshold). False of the code for angularAccelerationBodyFrame: it omits the term with the derivative of the S matrix (counterexample proved; the exact difference is C98_angular_acceleration_partial). Pose round trip for Euler angles away from gimbal lock."
  },
  {
   "property": "C99",
   "status": "partial",
   "theorems": [
    "Kalibr.Pose.C99_curve",
    "Kalibr.Pose.C99_transformation",
    "Kalibr.Pose.C99_inverse_transformation",
    "Kalibr.Pose.C99_orientation",
    "Kalibr.Pose.C99_inverse_orientation",
    "Kalibr.Pose.C99_transform_vector",
    "Kalibr.Pose.C99_linear_acceleration",
    "Kalibr.Pose.C99_angular_velocity_body_frame",
    "Kalibr.Pose.C99_angular_acceleration_body_frame",
    "Kalibr.Pose.C99_world_rate_partial",
    "Kalibr.Pose.C99_counterexample"
   ],
   "note": "pose, inverse, orientation, inverse orientation, transformed vector, linear acceleration, body-frame angular velocity and acceleration proved. False of the code for angularVelocityAndJacobian: it returns the negative of angularVelocity (counterexample proved; its Jacobian is that of the negative, C99_world_rate_partial)."
  },
  {
   "property": "C100",
   "status": "partial",
   "theorems": [
    "Kalibr.Pose.C100_transformation",
    "Kalibr.Pose.C100_orientation",
    "Kalibr.Pose.C100_position_velocity_acceleration",
    "Kalibr.Pose.C100_body_rates",
    "Kalibr.Pose.C100_acceleration_body_frame_partial",
    "Kalibr.Pose.C100_time_offset_coverage_partial",
    "Kalibr.Pose.C100_time_offset_margins_partial",
    "Kalibr.Pose.C100_time_offset_partial",
    "Kalibr.Pose.C100_time_offset_plain_partial",
    "Kalibr.Pose.C100_time_offset_plain_reads_outside",
    "Kalibr.Pose.C100_time_offset_counterexample",
    "Kalibr.Pose.C100_acceleration_body_frame_counterexample"
   ],
   "note": "all fixed-time nodes proved except the acceleration in the body frame, whose Jacobian ignores the orientation (counterexample proved). Time expression: margins, coverage and the Jacobian with chain rule for segments longer than 2e-10; without chain rule it reads outside its matrix whenever the node does not start at the first coefficient (proved for all such nodes)."
  },
  {
   "property": "C101",
   "status": "proved",
   "theorems": [
    "Kalibr.Motion.C101_sparse",
    "Kalibr.Motion.C101_rejects",
    "Kalibr.Motion.C101_diag",
    "Kalibr.Motion.C101_integral",
    "Kalibr.Motion.C101_accepts"
   ],
   "note": "dense, sparse and diagonal versions proved equal, and equal to the integral of the weighted squared derivative of the Cox-de Boor curve, for all well-formed splines."
  },
  {
   "property": "C102",
   "status": "partial",
   "theorems": [
    "Kalibr.Motion.C102_value",
    "Kalibr.Motion.C102_normal_equations_partial",
    "Kalibr.Motion.C102_rhs",
    "Kalibr.Motion.C102_numbering_counterexample"
   ],
   "note": "value and rhs() proved. The normal equations are exact when the active coefficients are numbered in the order of the coefficients (C102_normal_equations_partial); with another numbering the coupling entries are added below the diagonal where the solvers do not read (counterexample proved)."
  },
  {
   "property": "C103",
   "status": "partial",
   "theorems": [
    "Kalibr.Motion.C103_actual",
    "Kalibr.Motion.C103_at_creation_partial",
    "Kalibr.Motion.C103_after_updates",
    "Kalibr.Motion.C103_jacobian",
    "Kalibr.Motion.C103_factor",
    "Kalibr.Motion.C103_counterexample"
   ],
   "note": "False of the code (C103_counterexample): the terms are built with d = R c and measure the curve with coefficients 2 c - p, with c the coefficients at creation and p those before the last update (C103_actual). They agree with the motion integral at creation (C103_at_creation_partial). The factors from the singular value decomposition and the Jacobians with respect to p are proved."
  },
  {
   "property": "C104",
   "status": "partial",
   "theorems": [
    "Kalibr.Motion.C104_update_revert",
    "Kalibr.Motion.C104_minimal_difference_partial",
    "Kalibr.Motion.C104_minimal_difference_counterexample"
   ],
   "note": "updates, reverts and setting proved. The minimal difference uses the value before the last change: false after an update (counterexample proved), right after construction, revert and remapping."
  },
  {
   "property": "C105",
   "status": "partial",
   "theorems": [
    "Kalibr.Imu.C105_accelerometer_counterexample",
    "Kalibr.Imu.C105_cpp_jacobian",
    "Kalibr.Imu.C105_cpp_value",
    "Kalibr.Imu.C105_eccentric_counterexample",
    "Kalibr.Imu.C105_times",
    "Kalibr.Imu.C105_variables",
    "Kalibr.Imu.C105_models",
    "Kalibr.Imu.C105_eccentric_value",
    "Kalibr.Imu.C105_gyroscope",
    "Kalibr.Imu.C105_accelerometer_partial",
    "Kalibr.Imu.C105_reference_accelerometer",
    "Kalibr.Imu.C105_jacobian",
    "Kalibr.Imu.C105_addresses",
    "Kalibr.Imu.C105_value"
   ],
   "note": "Jacobians, reported variables, choice of the measurements, values of all five predictions and both C++ classes proved. The gyroscope prediction is the rate of the orientation. The accelerometer prediction is the specific force at the origin of the body (C105_reference_accelerometer); away from it there is the error given in C105_accelerometer_partial (C105_accelerometer_counterexample), because the angular acceleration of the pose spline is not the derivative of the angular velocity (C98). The C++ class AccelerometerErrorEccentric selects the axes in the wrong coordinates (C105_eccentric_counterexample)."
  },
  {
   "property": "C106",
   "status": "partial",
   "theorems": [
    "Kalibr.Reproj.C106_pinhole",
    "Kalibr.Reproj.C106_omni",
    "Kalibr.Reproj.C106_eucm_partial",
    "Kalibr.Reproj.C106_ds",
    "Kalibr.Reproj.C106_value",
    "Kalibr.Reproj.C106_jacobian",
    "Kalibr.Reproj.C106_simple",
    "Kalibr.Reproj.C106_zero_update",
    "Kalibr.Reproj.C106_update_measurement",
    "Kalibr.Reproj.C106_unprojectable_counterexample"
   ],
   "note": "Proved for pinhole, omnidirectional and double sphere cameras with every smooth distortion, jointly for all variables. Extended unified cameras need fu = fv (see C55). Equidistant and field of view distortions inherit the restrictions of C55 near the centre. A point that cannot be projected makes the error read an unwritten keypoint (C106_unprojectable_counterexample)."
  },
  {
   "property": "C107",
   "status": "partial",
   "theorems": [
    "Kalibr.Geometry.C107_temporal",
    "Kalibr.Geometry.C107_lawful",
    "Kalibr.Geometry.C107_parameters_get",
    "Kalibr.Geometry.C107_parameters_set",
    "Kalibr.Geometry.C107_parameters_identity",
    "Kalibr.Geometry.C107_parameters_copy",
    "Kalibr.Geometry.C107_fov_update_counterexample",
    "Kalibr.Geometry.C107_fov_update",
    "Kalibr.Geometry.C107_update_reads",
    "Kalibr.Geometry.C107_jacobian",
    "Kalibr.Geometry.C107_steady",
    "Kalibr.Geometry.C107_euclidean_partial",
    "Kalibr.Geometry.C107_euclidean_counterexample"
   ],
   "note": "Update, dimensions, Jacobian for homogeneous points, offset in time and parameters are proved for all cameras and choices. For Euclidean points the stacked Jacobian is wrong when projection and distortion are both estimated (the block starts at a row instead of a column): C107_euclidean_counterexample; the other choices are C107_euclidean_partial. A refused update of the FOV parameter leaves the camera with the refused parameter (C107_fov_update_counterexample)."
  },
  {
   "property": "C108",
   "status": "partial",
   "theorems": [
    "Kalibr.KeyTime.C108_time",
    "Kalibr.KeyTime.C108_exact",
    "Kalibr.KeyTime.C108_frame",
    "Kalibr.KeyTime.C108_monotone",
    "Kalibr.KeyTime.C108_global",
    "Kalibr.KeyTime.C108_expression",
    "Kalibr.KeyTime.C108_jacobian_partial",
    "Kalibr.KeyTime.C108_jacobian_counterexample",
    "Kalibr.KeyTime.C108_global_jacobian_counterexample",
    "Kalibr.KeyTime.C108_offset_partial"
   ],
   "note": "Time, order, global shutter and expression are proved. The Jacobian holds up to the rounding to nanoseconds only (C108_jacobian_partial, C108_jacobian_counterexample), raises for an active global shutter (C108_global_jacobian_counterexample), and the offset alone is refused when it is negative (C108_offset_partial)."
  },
  {
   "property": "C109",
   "status": "partial",
   "theorems": [
    "Kalibr.Fit.C109_constant_partial",
    "Kalibr.Fit.C109_rejects",
    "Kalibr.Fit.C109_counterexample"
   ],
   "note": "Proved for objects that do not have more knots than the new spline. On an object with more knots the check of the new knots reads past their end (C109_counterexample)."
  },
  {
   "property": "C110",
   "status": "proved",
   "theorems": [
    "Kalibr.Fit.C110_set",
    "Kalibr.Fit.C110_get",
    "Kalibr.Fit.C110_matrix",
    "Kalibr.Fit.C110_local",
    "Kalibr.Fit.C110_phi",
    "Kalibr.Fit.C110_set_local",
    "Kalibr.Fit.C110_segment"
   ],
   "note": "The full statement."
  },
  {
   "property": "C111",
   "status": "proved",
   "theorems": [
    "Kalibr.Fit.C111_determined",
    "Kalibr.Fit.C111_complete",
    "Kalibr.Fit.C111_repeated_counterexample"
   ],
   "note": "The full statement; the last segment must be at least 1e-10 long, as shorter ones are hidden by the rounding of times to the end. For repeated knots it is false (C111_repeated_counterexample)."
  },
  {
   "property": "C112",
   "status": "partial",
   "theorems": [
    "Kalibr.Fit.C112_line_partial",
    "Kalibr.Fit.C112_rejects"
   ],
   "note": "Proved for every order under the assumption that the QR solver is exact, for objects that do not have more knots than the new spline (see C109)."
  },
  {
   "property": "C113",
   "status": "partial",
   "theorems": [
    "Kalibr.Fit.C113_extend_partial",
    "Kalibr.Fit.C113_rejects",
    "Kalibr.Fit.C113_counterexample",
    "Kalibr.Fit.C113_second_partial",
    "Kalibr.Fit.C113_second_rejects",
    "Kalibr.Fit.C113_second_counterexample"
   ],
   "note": "New end, old end, number of segments and unchanged coefficients are proved under the assumption that the QR solver is exact and the last interval is not empty, for addCurveSegment and, with weight 0, for addCurveSegment2. The curve is unchanged on all but the last order-2 segments; on those it changes (C113_counterexample). With another weight addCurveSegment2 keeps neither end (C113_second_counterexample)."
  },
  {
   "property": "C114",
   "status": "partial",
   "theorems": [
    "Kalibr.Fit.C114_dense_partial",
    "Kalibr.Fit.C114_sparse_partial",
    "Kalibr.Fit.C114_knots_partial",
    "Kalibr.Fit.C114_exact",
    "Kalibr.Fit.C114_rejects",
    "Kalibr.Fit.C114_points_partial",
    "Kalibr.Fit.C114_points_rejects"
   ],
   "note": "Proved for exact solvers, nonnegative factors and objects that do not have more knots than the new spline (see C109)."
  },
  {
   "property": "C115",
   "status": "partial",
   "theorems": [
    "Kalibr.Cov.C115_optimizer_partial",
    "Kalibr.Cov.C115_diagonal_partial",
    "Kalibr.Cov.C115_all_partial",
    "Kalibr.Cov.C115_blocks_partial",
    "Kalibr.Cov.C115_sparse_partial",
    "Kalibr.Cov.C115_counterexample"
   ],
   "note": "Proved for matrices with at most 2^31 entries and an exact factor; with 46341 scalar variables the index of an entry overflows (counterexample)."
  },
  {
   "property": "C116",
   "status": "partial",
   "theorems": [
    "Kalibr.Marg.C116_jacobian",
    "Kalibr.Marg.C116_prior_partial",
    "Kalibr.Marg.C116_top",
    "Kalibr.Marg.C116_duplicates",
    "Kalibr.Marg.C116_underdetermined",
    "Kalibr.Marg.C116_nothing_left",
    "Kalibr.Marg.C116_covariance_partial",
    "Kalibr.Marg.C116_covariance_counterexample",
    "Kalibr.Marg.C116_indices_counterexample",
    "Kalibr.Marg.C116_rank_counterexample",
    "Kalibr.Marg.C116_unlisted_counterexample"
   ],
   "note": "Proved for an exact QR decomposition, removed variables that are determined and terms on listed variables. Refuted: indices stay overwritten after an exception, the covariance is undefined with more rows than columns, a removed variable that is not determined takes information with it, an unlisted variable is written outside the matrix."
  },
  {
   "property": "C117",
   "status": "partial",
   "theorems": [
    "Kalibr.Lin.C117_null_space",
    "Kalibr.Lin.C117_refused",
    "Kalibr.Lin.C117_rank",
    "Kalibr.Lin.C117_solve_partial",
    "Kalibr.Lin.C117_square_counterexample",
    "Kalibr.Lin.C117_information_partial",
    "Kalibr.Lin.C117_solve_counterexample",
    "Kalibr.Lin.C117_information_counterexample",
    "Kalibr.Lin.C117_rank_counterexample"
   ],
   "note": "Proved for exact factorisations: what is minimised is the sum of squares without one orthogonal component, exact if the second group does not act on it. Refuted as stated: reduceLeftHandSide and reduceRightHandSide take one column too many of the rotated matrix (inclusive end index), so information is lost (counterexamples), and with one equation more than unknowns in the first group no step is ever delivered. A rank of an earlier matrix is kept (counterexample)."
  },
  {
   "property": "C118",
   "status": "partial",
   "theorems": [
    "Kalibr.Lin.C118_information_partial",
    "Kalibr.Lin.C118_covariance_partial",
    "Kalibr.Lin.C118_dependent_counterexample"
   ],
   "note": "Proved for exact factorisations and independent columns of the first group; with dependent columns information is lost (counterexample)."
  },
  {
   "property": "C119",
   "status": "partial",
   "theorems": [
    "Kalibr.App.C119_all",
    "Kalibr.App.C119_window_partial",
    "Kalibr.App.C119_rejected",
    "Kalibr.App.C119_window_counterexample"
   ],
   "note": "Without a window proved in full. With a window proved for messages recorded in the order of their stamps; otherwise places in the sorted list are taken for places in the recording (counterexample)."
  },
  {
   "property": "C120",
   "status": "partial",
   "theorems": [
    "Kalibr.App.C120_schedule_partial",
    "Kalibr.App.C120_subset",
    "Kalibr.App.C120_ends",
    "Kalibr.App.C120_exception_counterexample"
   ],
   "note": "Proved for every schedule and number of workers if the detector does not throw, with termination. If it throws, a worker dies silently and images are given up without an error (counterexample)."
  },
  {
   "property": "C121",
   "status": "partial",
   "theorems": [
    "Kalibr.App.C121_views",
    "Kalibr.App.C121_once",
    "Kalibr.App.C121_cameras",
    "Kalibr.App.C121_pairs",
    "Kalibr.App.C121_camera",
    "Kalibr.App.C121_groups",
    "Kalibr.App.C121_order_counterexample"
   ],
   "note": "All the statements are proved. That the views do not depend on the order is proved for images in groups and refuted otherwise (counterexample)."
  },
  {
   "property": "C122",
   "status": "partial",
   "theorems": [
    "Kalibr.App.C122_edges",
    "Kalibr.App.C122_mutual",
    "Kalibr.App.C122_graph",
    "Kalibr.App.C122_built",
    "Kalibr.App.C122_unseen_counterexample"
   ],
   "note": "Proved for every database; the graph is built if the cameras that saw something are numbered from zero. If the first camera saw nothing it is an exception (counterexample)."
  },
  {
   "property": "C123",
   "status": "proved",
   "theorems": [
    "Kalibr.App.C123_baselines",
    "Kalibr.App.C123_target",
    "Kalibr.App.C123_target_total"
   ],
   "note": "The shortest paths and the choice of edges of igraph are arbitrary; transformations are a group."
  },
  {
   "property": "C124",
   "status": "partial",
   "theorems": [
    "Kalibr.App.C124_terms",
    "Kalibr.App.C124_statistics_partial",
    "Kalibr.App.C124_statistics_counterexample",
    "Kalibr.App.C124_errors"
   ],
   "note": "The terms are proved in full; the statistics of a corner only for the first camera of the view. For the other cameras they are taken from error terms of the first (counterexample)."
  },
  {
   "property": "C125",
   "status": "partial",
   "theorems": [
    "Kalibr.App.Filter.C125_views",
    "Kalibr.App.Filter.C125_removed",
    "Kalibr.App.Filter.C125_pass",
    "Kalibr.App.Filter.C125_few_partial",
    "Kalibr.App.Filter.C125_mean_counterexample",
    "Kalibr.App.Filter.C125_restart_counterexample",
    "Kalibr.App.C125_removed"
   ],
   "note": "Consistency of views and estimator, the removal rule and a full pass are proved for every behaviour of the estimator. That few corners are removed holds for centred errors only; errors are compared with zero, the deviation is about the mean (counterexample). A restart keeps the removed corners (counterexample)."
  },
  {
   "property": "C126",
   "status": "partial",
   "theorems": [
    "Kalibr.App.Knots.C126_errors",
    "Kalibr.App.Knots.C126_boundary_counterexample",
    "Kalibr.App.Knots.C126_sequence",
    "Kalibr.App.Knots.C126_split_partial",
    "Kalibr.App.Knots.C126_dropped_counterexample",
    "Kalibr.App.Knots.C126_shared_counterexample",
    "Kalibr.App.Knots.C126_lookup_counterexample",
    "Kalibr.App.Knots.C126_end_counterexample"
   ],
   "note": "Order, origin and conditions of the knots are proved for every history; the exact rule if no knot is dropped. Refuted: an observation at a knot is in no segment, errors are shifted once a knot is dropped, disabled segments are shared between strategies, a lookup can fail, and the last knot is appended twice."
  },
  {
   "property": "C127",
   "status": "partial",
   "theorems": [
    "Kalibr.App.Config.C127_intrinsics",
    "Kalibr.App.Config.C127_set_get",
    "Kalibr.App.Config.C127_roundtrip",
    "Kalibr.App.Config.C127_written_partial",
    "Kalibr.App.Config.C127_written_counterexample",
    "Kalibr.App.Config.C127_pinhole_counterexample",
    "Kalibr.App.Config.C127_camera_partial",
    "Kalibr.App.Config.C127_target",
    "Kalibr.App.Config.C127_target_counterexample",
    "Kalibr.App.Config.C127_imu_counterexample"
   ],
   "note": "Acceptance and the round trip are proved. Refuted: results with a negative principal point are not written, a pinhole camera without distortion has no geometry, wrong target parameters are a NameError, names of units collide."
  },
  {
   "property": "C128",
   "status": "partial",
   "theorems": [
    "Kalibr.Icc.C128_camera_partial",
    "Kalibr.Icc.C128_pair_partial",
    "Kalibr.Icc.C128_no_overlap",
    "Kalibr.Icc.C128_border_counterexample",
    "Kalibr.Icc.C128_pause_counterexample"
   ],
   "note": "Proved for messages at equal steps, shifts by a number of steps and motion inside the common time. Refuted at the borders of the common time and with a pause in the messages (counterexamples). The final refinement by scipy is not modelled."
  },
  {
   "property": "C129",
   "status": "partial",
   "theorems": [
    "Kalibr.Icc.C129_rotations",
    "Kalibr.Icc.C129_nearest",
    "Kalibr.Icc.C129_axis_partial",
    "Kalibr.Icc.C129_turns_counterexample",
    "Kalibr.Icc.C129_zero_counterexample"
   ],
   "note": "That the rotations are kept and each vector is the nearest within three turns is proved for all sequences; the true angle is followed for turns about one axis up to three and a half turns. Refuted beyond that, and when a turn comes back to zero (counterexamples)."
  },
  {
   "property": "C130",
   "status": "partial",
   "theorems": [
    "Kalibr.Icc.C130_trafo",
    "Kalibr.Icc.C130_time",
    "Kalibr.Icc.C130_baseline",
    "Kalibr.Icc.C130_baseline_counterexample",
    "Kalibr.Icc.C130_saved",
    "Kalibr.Icc.C130_stale_counterexample",
    "Kalibr.Icc.C130_pose_partial",
    "Kalibr.Icc.C130_pose_counterexample"
   ],
   "note": "Transformations, adjacent baselines, time shifts and the file are proved for chains of any length. Refuted: baselines of cameras that are not adjacent, an old time shift that stays in the file without time calibration, and the pose of a second unit, whose lever arm has the wrong sign and frame (the exact condition for it to be right is proved)."
  },
  {
   "property": "C131",
   "status": "partial",
   "theorems": [
    "Kalibr.Icc.Rs.C131_terms_iff",
    "Kalibr.Icc.Rs.C131_whole_partial",
    "Kalibr.Icc.Rs.C131_pair_counterexample",
    "Kalibr.Icc.Rs.C131_more_counterexample",
    "Kalibr.Icc.Rs.C131_guess",
    "Kalibr.Icc.Rs.C131_delay",
    "Kalibr.Icc.Rs.C131_variance_counterexample",
    "Kalibr.Icc.Rs.C131_config_partial",
    "Kalibr.Icc.Rs.C131_config_counterexample"
   ],
   "note": "The exact condition under which the pairs are right is proved. Refuted: with a target seen in parts image points are paired with other corners or the program ends; a pose that is not found ends it; the weight is the inverse of what the option is called; a global shutter calibration changes later ones."
  },
  {
   "property": "C132",
   "status": "partial",
   "theorems": [
    "Kalibr.Icc.Frames.C132_used",
    "Kalibr.Icc.Frames.C132_first_camera",
    "Kalibr.Icc.Frames.C132_padding_counterexample",
    "Kalibr.Icc.Frames.C132_printed_counterexample",
    "Kalibr.Icc.Frames.C132_printed_iff"
   ],
   "note": "Proved for all images, shifts and positive paddings. Refuted: without a padding the first and last image are dropped; the printed number counts images that were not used."
  },
  {
   "property": "C133",
   "status": "partial",
   "theorems": [
    "Kalibr.Print.C133_drawn",
    "Kalibr.Print.C133_reading_partial",
    "Kalibr.Print.C133_printed_corners",
    "Kalibr.Print.C133_observation_partial",
    "Kalibr.Print.C133_perspective_counterexample"
   ],
   "note": "Proved from the script to the observation for every board, start corner and non-degenerate affine view, with one black and one white level, when the spacing is more than half a cell. Missing: the search of quadrilaterals in the image. Refuted under perspective: cells are placed by bilinear interpolation, so a cell can be read in another one (counterexample)."
  },
  {
   "property": "C134",
   "status": "partial",
   "theorems": [
    "Kalibr.Print.C134_boxes",
    "Kalibr.Print.C134_corners",
    "Kalibr.Print.C134_half_turn",
    "Kalibr.Print.C134_usage_counterexample",
    "Kalibr.Print.C134_shape"
   ],
   "note": "Boxes, corners and shape are proved for all boards. Refuted: the board looks the same after half a turn exactly if the sum of columns and rows is even, as for the board of the usage message."
  },
  {
   "property": "C135",
   "status": "partial",
   "theorems": [
    "Kalibr.Quads.C135_loops",
    "Kalibr.Quads.C135_once",
    "Kalibr.Quads.C135_equal_counterexample"
   ],
   "note": "Proved: exactly the closed chains of four successors with the start at a greatest angle are examined; with one strictly greatest angle exactly once. False with equal angles (counterexample: four equal angles, examined four times, the same outline is then listed several times)."
  },
  {
   "property": "C136",
   "status": "partial",
   "theorems": [
    "Kalibr.Quads.C136_accepted",
    "Kalibr.Quads.C136_sentinel_counterexample",
    "Kalibr.Quads.C136_winding",
    "Kalibr.Quads.C136_shapes"
   ],
   "note": "Proved: characterisation of the winding test in general position, acceptance of convex outlines of the right sense, refusal of the others and of self-crossing ones; facts about accepted outlines. False: an outline with a corner at the abscissa -1 (the mark for parallel lines) is refused although the same outline elsewhere is accepted. Darts with one re-entrant corner are accepted (example)."
  },
  {
   "property": "C137",
   "status": "proved",
   "theorems": [
    "Kalibr.Quads.C137_find",
    "Kalibr.Quads.C137_outside",
    "Kalibr.Quads.C137_successors",
    "Kalibr.Quads.C137_tests",
    "Kalibr.Quads.C137_accepts"
   ],
   "note": "Objects a cell or more outside of the rectangle are dropped, C137_outside. Exact reals."
  },
  {
   "property": "C138",
   "status": "partial",
   "theorems": [
    "Kalibr.Quads.C138_reported",
    "Kalibr.Quads.C138_once_partial",
    "Kalibr.Quads.C138_counterexample"
   ],
   "note": "Proved: only detections are reported and a best detection of every identifier is kept; exactly one per group if overlapping is transitive on the detections. False in general: a detection that overlaps two kept ones replaces both and is reported twice."
  },
  {
   "property": "C139",
   "status": "proved",
   "theorems": [
    "Kalibr.Quads.C139_fit",
    "Kalibr.Quads.C139_segment",
    "Kalibr.Quads.C139_direction"
   ],
   "note": "The fit needs a positive sum of weights, the direction non-negative weights and two different ends. Exact reals."
  },
  {
   "property": "C140",
   "status": "partial",
   "theorems": [
    "Kalibr.Pixels.C140_smooth_partial",
    "Kalibr.Pixels.C140_first_columns",
    "Kalibr.Pixels.C140_counterexample",
    "Kalibr.Pixels.C140_range",
    "Kalibr.Pixels.C140_kernel"
   ],
   "note": "The convolution compares positions in the whole image with the length of a row: from the second row on the first columns are smoothed wrongly (C140_first_columns: they are copies of the first column; C140_counterexample). Proved: all other columns, the range, the kernel."
  },
  {
   "property": "C141",
   "status": "proved",
   "theorems": [
    "Kalibr.Pixels.C141_edges",
    "Kalibr.Pixels.C141_groups",
    "Kalibr.Pixels.C141_border",
    "Kalibr.Pixels.C141_alone",
    "Kalibr.Pixels.C141_bound"
   ],
   "note": "The theorem covers every permutation of the list of pairs, hence the stable sort. The magnitudes in the last row and column are zero (C141_border) and bounded for images with values from 0 to 1 (C141_bound)."
  },
  {
   "property": "C142",
   "status": "partial",
   "theorems": [
    "Kalibr.Pcg.C142_absolute_counterexample",
    "Kalibr.Pcg.C142_stale_counterexample",
    "Kalibr.Pcg.C142_accuracy_partial",
    "Kalibr.Pcg.C142_exact",
    "Kalibr.Pcg.C142_descent",
    "Kalibr.Pcg.C142_reuse"
   ],
   "note": "Proved for all positive definite matrices and all layouts: the residual, exactness with tolerance zero, descent, and repeated use of one matrix object with changed numbers (C142_exact, C142_descent, C142_reuse). The accuracy holds only up to the absolute bound that the solver takes over from the call before (C142_accuracy_partial): with default settings a second, smaller system is answered with zero (C142_absolute_counterexample). Used for a second matrix without init, the solver mixes the blocks of both matrices or follows dangling pointers (C142_stale_counterexample)."
  },
  {
   "property": "C143",
   "status": "partial",
   "theorems": [
    "Kalibr.Init.C143_intrinsics",
    "Kalibr.Init.C143_batch_terms",
    "Kalibr.Init.C143_batch_exact",
    "Kalibr.Init.C143_stereo_variables",
    "Kalibr.Init.C143_intrinsics_variables",
    "Kalibr.Init.C143_batch_variables",
    "Kalibr.Init.C143_half_turn_counterexample",
    "Kalibr.Init.C143_median",
    "Kalibr.Init.C143_baseline_partial",
    "Kalibr.Init.C143_stereo_terms",
    "Kalibr.Init.C143_stereo_exact_partial",
    "Kalibr.Init.C143_stereo_result",
    "Kalibr.Init.C143_stereo_total"
   ],
   "note": "Proved: the median withstands any minority of bad views (C143_median), the terms and variables of all three problems, exact start with exact data (C143_intrinsics, C143_batch_exact). For two cameras the exact start and the baseline by majority need the rotation of the baseline to be the identity or to have an angle between 1e-14 and pi - 1e-14, where the rotation vector is inverted (C143_baseline_partial, C143_stereo_exact_partial). Near a half turn the component-wise median of rotation vectors fails: two nearly equal baselines give the identity (C143_half_turn_counterexample)."
  },
  {
   "property": "C144",
   "status": "partial",
   "theorems": [
    "Kalibr.Solvers.C144_undamped_counterexample",
    "Kalibr.Solvers.C144_stale_error_counterexample",
    "Kalibr.Solvers.C144_null_counterexample",
    "Kalibr.Solvers.C144_sparse_cholesky",
    "Kalibr.Solvers.C144_sparse_qr_partial",
    "Kalibr.Solvers.C144_dense_qr_partial",
    "Kalibr.Solvers.C144_dense_counterexample"
   ],
   "note": "Proved for sparse Cholesky (C144_sparse_cholesky, all histories). Sparse QR: minimises the undamped problem with the error evaluated last. False of the code: sparse QR ignores the conditioner (C144_undamped_counterexample), solves with the error of a rejected state (C144_stale_error_counterexample), writes through a null pointer if the factorisation fails with normalised columns (C144_null_counterexample); dense QR reads a flag that is never assigned (C144_dense_counterexample). The libraries are parameters."
  },
  {
   "property": "C145",
   "status": "partial",
   "theorems": [
    "Kalibr.Unc.C145_point_arithmetic",
    "Kalibr.Unc.C145_point_sum",
    "Kalibr.Unc.C145_point_difference_partial",
    "Kalibr.Unc.C145_certain_point_partial",
    "Kalibr.Unc.C145_point_difference_counterexample",
    "Kalibr.Unc.C145_certain_point_counterexample",
    "Kalibr.Unc.C145_euclidean",
    "Kalibr.Unc.C145_point_jacobians",
    "Kalibr.Unc.C145_point_oplus",
    "Kalibr.Unc.C145_product",
    "Kalibr.Unc.C145_inverse",
    "Kalibr.Unc.C145_certain_product",
    "Kalibr.Unc.C145_action",
    "Kalibr.Unc.C145_group_laws",
    "Kalibr.Unc.C145_oplus",
    "Kalibr.Unc.C145_normalize",
    "Kalibr.Unc.C145_vectors",
    "Kalibr.Unc.C145_numbers",
    "Kalibr.Unc.C145_rotate",
    "Kalibr.Unc.C145_semidefinite"
   ],
   "note": "Proved: products, inverse, action, sum of points, conversion, normalisation, all vector and number operations, algebraic laws, positive semidefiniteness. Differences of two uncertain points only when the fourth coordinates are certain (C145_point_difference_partial; otherwise false, C145_point_difference_counterexample: the code uses the plus matrix for both). Uncertain plus or minus certain point only when the certain one has fourth coordinate one (C145_certain_point_partial; otherwise false, C145_certain_point_counterexample: the covariance is not scaled)."
  },
  {
   "property": "C146",
   "status": "partial",
   "theorems": [
    "Kalibr.Stats.C146_covariance",
    "Kalibr.Stats.C146_vector_density",
    "Kalibr.Stats.C146_vector_divergence",
    "Kalibr.Stats.C146_singular_counterexample",
    "Kalibr.Stats.C146_refused_counterexample",
    "Kalibr.Stats.C146_members",
    "Kalibr.Stats.C146_density",
    "Kalibr.Stats.C146_cumulative",
    "Kalibr.Stats.C146_divergence"
   ],
   "note": "Proved: members after any setters, density, cumulative distribution, divergence, for numbers and vectors. False of the code for vectors: a singular covariance is accepted although there is no density (C146_singular_counterexample), and a refused covariance changes the samples, since the factor is stored before the test (C146_refused_counterexample). Eigen is a parameter."
  },
  {
   "property": "C147",
   "status": "partial",
   "theorems": [
    "Kalibr.Stats.C147_most_likely",
    "Kalibr.Stats.C147_grouping",
    "Kalibr.Stats.C147_zero_weights_counterexample",
    "Kalibr.Stats.C147_vector_partial",
    "Kalibr.Stats.C147_vector_counterexample"
   ],
   "note": "Proved for numbers after any history (C147_most_likely, C147_grouping). For vectors where the sample spreads in every direction (C147_vector_partial); otherwise the estimator says valid although the covariance is singular (C147_vector_counterexample). Weights that sum to zero divide by zero (C147_zero_weights_counterexample)."
  },
  {
   "property": "C148",
   "status": "partial",
   "theorems": [
    "Kalibr.Stats.C148_density",
    "Kalibr.Stats.C148_mean_counterexample",
    "Kalibr.Stats.C148_samples",
    "Kalibr.Stats.C148_integers",
    "Kalibr.Stats.C148_integer_counterexample",
    "Kalibr.Stats.C148_integer_samples",
    "Kalibr.Stats.C148_integer_samples_counterexample",
    "Kalibr.Stats.C148_vector_partial",
    "Kalibr.Stats.C148_vector_counterexample"
   ],
   "note": "Proved: refusal, density, integral, variance of one number, samples (C148_density, C148_integers, C148_samples, C148_integer_samples, C148_vector_partial). False of the code: mean and median are half of the width, right only for supports that begin at zero (C148_mean_counterexample, C148_integer_counterexample); the covariance of vectors uses the volume instead of the sides (C148_vector_counterexample); integer samples take the ends half as often (C148_integer_samples_counterexample)."
  },
  {
   "property": "C149",
   "status": "partial",
   "theorems": [
    "Kalibr.Stats.C149_functions",
    "Kalibr.Stats.C149_density",
    "Kalibr.Stats.C149_mode",
    "Kalibr.Stats.C149_cumulative",
    "Kalibr.Stats.C149_divergence_partial",
    "Kalibr.Stats.C149_divergence_counterexample",
    "Kalibr.Stats.C149_chi_square"
   ],
   "note": "Proved: refusal, density, integral, mean, variance, mode, cumulative distribution, chi square, special functions. The divergence is proved for equal shapes (C149_divergence_partial); for different shapes it is false: the digamma function is taken at the shape of the other distribution, and the result can be negative (C149_divergence_counterexample)."
  },
  {
   "property": "C150",
   "status": "partial",
   "theorems": [
    "Kalibr.Stats.C150_exponential",
    "Kalibr.Stats.C150_geometric",
    "Kalibr.Stats.C150_poisson",
    "Kalibr.Stats.C150_categorical_range",
    "Kalibr.Stats.C150_categorical",
    "Kalibr.Stats.C150_categorical_counterexample"
   ],
   "note": "Proved for all four samplers. False of the code only in a single draw: a first category of probability zero comes up when the draw is exactly zero (C150_categorical_counterexample). The Poisson sample is characterised by the arrivals, the probability of each value is not derived."
  },
  {
   "property": "C151",
   "status": "proved",
   "theorems": [
    "Kalibr.Histogram.C151_mean",
    "Kalibr.Histogram.C151_variance",
    "Kalibr.Histogram.C151_mode",
    "Kalibr.Histogram.C151_median",
    "Kalibr.Histogram.C151_counts",
    "Kalibr.Histogram.C151_normalized"
   ],
   "note": "Proved for every sequence of samples (C151_counts, C151_normalized in any dimension; C151_mean, C151_median, C151_mode, C151_variance in one). Exact arithmetic; the mean needs a sample in range and the variance two, otherwise the code divides by zero."
  },
  {
   "property": "C152",
   "status": "partial",
   "theorems": [
    "Kalibr.Generic.C152_jacobian_partial",
    "Kalibr.Generic.C152_plain_jacobian_partial",
    "Kalibr.Generic.C152_quotient_counterexample",
    "Kalibr.Generic.C152_variable"
   ],
   "note": "Proved for sums, differences, products, negations, conversions and quotients of constants (C152_jacobian_partial, C152_plain_jacobian_partial, C152_variable). False for quotients with design variables: the division node passes the factor of the dividend to the divisor and the other way round (C152_quotient_counterexample)."
  },
  {
   "property": "C153",
   "status": "partial",
   "theorems": [
    "Kalibr.Generic.Fixed.C153_sum",
    "Kalibr.Generic.Fixed.C153_product",
    "Kalibr.Generic.Fixed.C153_quotient",
    "Kalibr.Generic.Fixed.C153_conversions",
    "Kalibr.Generic.Fixed.C153_convert_partial",
    "Kalibr.Generic.Fixed.C153_convert_counterexample"
   ],
   "note": "Proved for 8, 16 and 32 bits (C153_sum, C153_product, C153_quotient, C153_conversions) and for conversions of numbers that are not negative between resolutions (C153_convert_partial). False for negative numbers: that conversion is done in uintmax_t (C153_convert_counterexample). 64 bit numbers, whose intermediate products can overflow, are not covered."
  },
  {
   "property": "C154",
   "status": "partial",
   "theorems": [
    "Kalibr.Numpy.C154_matrix_partial",
    "Kalibr.Numpy.C154_vector_partial",
    "Kalibr.Numpy.C154_refused",
    "Kalibr.Numpy.C154_round_trip",
    "Kalibr.Numpy.C154_long_counterexample",
    "Kalibr.Numpy.C154_size_counterexample"
   ],
   "note": "Proved for sizes below 2^31 and elements the scalar type can hold (C154_matrix_partial, C154_vector_partial, C154_refused, C154_round_trip). False for 64 bit integers passed to a matrix of int, which are cut off without an error (C154_long_counterexample), and for sizes above 2^32, which are cut off too (C154_size_counterexample). Rounding to float and double, byte order and the alignment of the storage are not modelled."
  },
  {
   "property": "C155",
   "status": "partial",
   "theorems": [
    "Kalibr.Mask.C155_overlap_partial",
    "Kalibr.Mask.C155_ratios",
    "Kalibr.Mask.C155_mask_counterexample",
    "Kalibr.Mask.C155_mask_unchanged",
    "Kalibr.Mask.C155_sample",
    "Kalibr.Mask.C155_distance_counterexample",
    "Kalibr.Mask.C155_matrix",
    "Kalibr.Mask.C155_outside_counterexample",
    "Kalibr.Mask.C155_copy_counterexample"
   ],
   "note": "Masks and matrices: C155_matrix. Marked pixels for masks that have the right size already: C155_overlap_partial. Ratios: C155_ratios (for images with at least one pixel; the code divides zero by zero otherwise). False for masks of another size, such as new ones, which keep what they had (C155_mask_counterexample, C155_mask_unchanged), of the distances, to which the length of the ray is added (C155_sample, C155_distance_counterexample), of keypoints outside the image (C155_outside_counterexample) and of copies of masks, which share their pixels (C155_copy_counterexample)."
  },
  {
   "property": "C156",
   "status": "partial",
   "theorems": [
    "Kalibr.Bag.C156_images_partial",
    "Kalibr.Bag.C156_order_counterexample",
    "Kalibr.Bag.C156_imu_counterexample",
    "Kalibr.Bag.C156_imu_stamp_counterexample",
    "Kalibr.Bag.C156_imu_stamp_partial",
    "Kalibr.Bag.C156_small_stamp"
   ],
   "note": "Images keep their times and come back complete; in order if all seconds have the same number of digits. False otherwise and false of inertial measurements (counterexamples: string order of names, text written to files opened for bytes, time stamps through a double, stamps below one second)."
  },
  {
   "property": "C157",
   "status": "partial",
   "theorems": [
    "Kalibr.Export.C157_msf",
    "Kalibr.Export.C157_okvis_partial",
    "Kalibr.Export.C157_okvis_left_out",
    "Kalibr.Export.C157_okvis_size_counterexample",
    "Kalibr.Export.C157_okvis_fov_counterexample",
    "Kalibr.Export.C157_okvis_topic_counterexample",
    "Kalibr.Export.C157_rovio_partial",
    "Kalibr.Export.C157_rovio_files",
    "Kalibr.Export.C157_rovio_counterexample"
   ],
   "note": "Proved for MSF, for OKVIS with pinhole cameras and four coefficients, for ROVIO with pinhole cameras. False of the image size (OKVIS), of the FOV distortion (OKVIS), of topics in which the image name stands earlier, and of ROVIO with camera names that end in the same letter (counterexamples)."
  },
  {
   "property": "C158",
   "status": "partial",
   "theorems": [
    "Kalibr.Validator.C158_pairs",
    "Kalibr.Validator.C158_poses",
    "Kalibr.Validator.C158_rectified",
    "Kalibr.Validator.C158_upright_counterexample",
    "Kalibr.Validator.C158_errors_counterexample"
   ],
   "note": "Pairs, poses and rectification are proved; the views of a pair whose second camera is to the right are upside down, and the table of errors of a pair always raises (counterexamples)."
  },
  {
   "property": "C159",
   "status": "partial",
   "theorems": [
    "Kalibr.Report.C159_uncertainty",
    "Kalibr.Report.C159_shutter_counterexample",
    "Kalibr.Report.C159_statistics",
    "Kalibr.Report.C159_mean_std"
   ],
   "note": "Proved for shutters without parameters; with a shutter parameter the uncertainties are printed beside other parameters (counterexample)."
  },
  {
   "property": "C160",
   "status": "partial",
   "theorems": [
    "Kalibr.Report.C160_pages",
    "Kalibr.Report.C160_icc_figures",
    "Kalibr.Report.C160_cam_figures_partial",
    "Kalibr.Report.C160_cam_figures_counterexample"
   ],
   "note": "Pages and figures of the report about cameras and sensors are proved; the figures of the camera report are distinct up to a hundred cameras (counterexample with 101)."
  },
  {
   "property": "C161",
   "status": "partial",
   "theorems": [
    "Kalibr.Visual.C161_sensors_partial",
    "Kalibr.Visual.C161_one_sensor",
    "Kalibr.Visual.C161_no_models_counterexample",
    "Kalibr.Visual.C161_files",
    "Kalibr.Visual.C161_files_counterexample"
   ],
   "note": "Pairing, reference sensor, messages and file names are proved; several sensors without models crash instead of giving the message, and different bags can give the same names (counterexamples)."
  },
  {
   "property": "C162",
   "status": "partial",
   "theorems": [
    "Kalibr.Visual.C162_cameras",
    "Kalibr.Visual.C162_imu",
    "Kalibr.Visual.C162_outline_partial",
    "Kalibr.Visual.C162_omni_counterexample"
   ],
   "note": "Poses are proved for all chains; the outline for pinhole intrinsics. The outline of omnidirectional cameras is wrong: the mirror parameter is taken for the focal length (counterexample)."
  },
  {
   "property": "C163",
   "status": "partial",
   "theorems": [
    "Kalibr.Visual.C163_focus",
    "Kalibr.Visual.C163_missing_frequency"
   ],
   "note": "Proved for spectra without zeros; a missing frequency makes the measure not a number (C163_missing_frequency)."
  },
  {
   "property": "C164",
   "status": "partial",
   "theorems": [
    "Kalibr.Serial.C164_matrices_partial",
    "Kalibr.Serial.C164_matrices_counterexample",
    "Kalibr.Serial.C164_sizes",
    "Kalibr.Serial.C164_images_partial",
    "Kalibr.Serial.C164_images_counterexample",
    "Kalibr.Serial.C164_kinematics",
    "Kalibr.Serial.C164_keypoints_partial",
    "Kalibr.Serial.C164_keypoints_counterexample",
    "Kalibr.Serial.C164_landmarks"
   ],
   "note": "Proved except for empty matrices with dynamic columns in XML archives, single rows cut out of wider images and the track of a keypoint (counterexamples)."
  },
  {
   "property": "C165",
   "status": "partial",
   "theorems": [
    "Kalibr.Serial.C165_distortions_and_shutters",
    "Kalibr.Serial.C165_projections",
    "Kalibr.Serial.C165_cameras",
    "Kalibr.Serial.C165_masks_partial",
    "Kalibr.Serial.C165_masks_counterexample",
    "Kalibr.Serial.C165_targets",
    "Kalibr.Serial.C165_observations_partial",
    "Kalibr.Serial.C165_detectors"
   ],
   "note": "Proved for this version of the classes, except for images of a single row cut out of a wider one; masks of version 0 are misread (counterexample). Sharing of pointers is not modelled."
  },
  {
   "property": "C166",
   "status": "partial",
   "theorems": [
    "Kalibr.PTree.C166_set",
    "Kalibr.PTree.C166_set_get",
    "Kalibr.PTree.C166_history",
    "Kalibr.PTree.C166_errors",
    "Kalibr.PTree.C166_namespaces",
    "Kalibr.PTree.C166_default_partial",
    "Kalibr.PTree.C166_default_counterexample",
    "Kalibr.PTree.C166_exists_counterexample"
   ],
   "note": "Setting, getting, histories, errors and namespaces are proved. Missing: C166_default_counterexample shows that the constant getter with a default writes the default into the tree, also over a value it cannot read; C166_exists_counterexample shows that the test for a name never answers no and throws for names that exist."
  },
  {
   "property": "C167",
   "status": "partial",
   "theorems": [
    "Kalibr.Util.C167_replace_partial",
    "Kalibr.Util.C167_replace_counterexample",
    "Kalibr.Util.C167_replace_reverse_partial",
    "Kalibr.Util.C167_replace_reverse_counterexample",
    "Kalibr.Util.C167_leading_pad",
    "Kalibr.Util.C167_to_stream",
    "Kalibr.Util.C167_variables",
    "Kalibr.Util.C167_no_variables",
    "Kalibr.Util.C167_identifier_text",
    "Kalibr.Util.C167_identifier_injective",
    "Kalibr.Util.C167_identifier_length",
    "Kalibr.Util.C167_identifier_counterexample",
    "Kalibr.Util.C167_identifier_equal",
    "Kalibr.Util.C167_identifier_order",
    "Kalibr.Util.C167_identifier_valid",
    "Kalibr.Util.C167_comparisons",
    "Kalibr.Util.C167_comparisons_refused"
   ],
   "note": "Proved except for three cases: replacing a character by itself does not end (C167_replace_counterexample); replacing from the back replaces an occurrence at the first position that was to be skipped when the number to be skipped is not reached (C167_replace_reverse_counterexample); texts of the right length that are no hexadecimal numbers are accepted as identifiers (C167_identifier_counterexample)."
  },
  {
   "property": "C168",
   "status": "partial",
   "theorems": [
    "Kalibr.Util.C168_big_partial",
    "Kalibr.Util.C168_little_counterexample",
    "Kalibr.Util.C168_little_partial",
    "Kalibr.Util.C168_lowest_counterexample",
    "Kalibr.Util.C168_narrow",
    "Kalibr.Util.C168_narrow_counterexample"
   ],
   "note": "The round trip is proved on machines that store the high byte first, except for the lowest number of 64 bits (C168_lowest_counterexample). On machines that store the low byte first the test for the order of bytes is always true since the macro is always defined, and every integer below 2^32 is loaded as zero (C168_little_counterexample); integers of eight bytes survive (C168_little_partial). Numbers that need as many bytes as the type can be loaded as other numbers (C168_narrow_counterexample)."
  },
  {
   "property": "C169",
   "status": "partial",
   "theorems": [
    "Kalibr.Gme.C169_jacobian_partial",
    "Kalibr.Gme.C169_design_variables",
    "Kalibr.Gme.C169_unit_quaternion_step",
    "Kalibr.Gme.C169_left_translated_counterexample",
    "Kalibr.Gme.C169_exp_of_vector_counterexample",
    "Kalibr.Gme.C169_quaternion_operations",
    "Kalibr.Gme.C169_rotate",
    "Kalibr.Gme.C169_rotate_length",
    "Kalibr.Gme.C169_exp_partial",
    "Kalibr.Gme.C169_update_keeps_length_partial"
   ],
   "note": "Proved for all trees without left translated unit quaternions and without exponential maps directly over vector expressions. Left translated unit quaternions add no Jacobian (C169_left_translated_counterexample), and over vector expressions the Jacobian of the exponential map leaves out what stands above it (C169_exp_of_vector_counterexample). Points where the exponential map is computed with a series and the logarithm are missing."
  },
  {
   "property": "C170",
   "status": "proved",
   "theorems": [
    "Kalibr.Align.C170_best_transformation",
    "Kalibr.Align.C170_recovers_transformation",
    "Kalibr.Align.C170_best_rotation",
    "Kalibr.Align.C170_recovers_rotation",
    "Kalibr.Align.C170_unweighted"
   ],
   "note": "Proved for every decomposition that has the properties Eigen promises (IsSvd, IsEigen); the decompositions themselves are not modelled."
  },
  {
   "property": "C171",
   "status": "partial",
   "theorems": [
    "Kalibr.Trafo.C171_set",
    "Kalibr.Trafo.C171_inverse_partial",
    "Kalibr.Trafo.C171_matrix",
    "Kalibr.Trafo.C171_matrix_plane",
    "Kalibr.Trafo.C171_inverses",
    "Kalibr.Trafo.C171_inverse_twice_counterexample",
    "Kalibr.Trafo.C171_inverse_of_matrix_counterexample",
    "Kalibr.Trafo.C171_inverse_stale_counterexample",
    "Kalibr.Trafo.C171_plane_partial",
    "Kalibr.Trafo.C171_plane_twice_counterexample"
   ],
   "note": "Proved for transformations that were set from a translation and angles and inverted once. Inverting twice gives another transformation (C171_inverse_twice_counterexample, C171_plane_twice_counterexample; C171_inverses says which), the inverse of an object made from a matrix reads uninitialised members (C171_inverse_of_matrix_counterexample), and after setTransformationMatrix the inverse is stale (C171_inverse_stale_counterexample)."
  },
  {
   "property": "C172",
   "status": "partial",
   "theorems": [
    "Kalibr.Mutex.C172_exclusion_partial",
    "Kalibr.Mutex.C172_try_lock_counterexample",
    "Kalibr.Mutex.C172_calls",
    "Kalibr.Mutex.C172_no_lost_wakeup",
    "Kalibr.Mutex.C172_condition_wait",
    "Kalibr.Mutex.C172_wait_without_lock_counterexample",
    "Kalibr.Mutex.C172_recursive_wait_counterexample"
   ],
   "note": "Proved for every schedule without tryLock. tryLock never fails and takes the mutex away from its holder (C172_try_lock_counterexample); a wait on a condition without the mutex throws and blocks every later call (C172_wait_without_lock_counterexample); a wait with a recursive mutex that is locked twice never returns (C172_recursive_wait_counterexample)."
  },
  {
   "property": "C173",
   "status": "partial",
   "theorems": [
    "Kalibr.Undist.C173_outer",
    "Kalibr.Undist.C173_inner",
    "Kalibr.Undist.C173_camera_matrix",
    "Kalibr.Undist.C173_map",
    "Kalibr.Undist.C173_entry",
    "Kalibr.Undist.C173_far_counterexample",
    "Kalibr.Undist.C173_undistorted",
    "Kalibr.Undist.C173_omni_pinhole",
    "Kalibr.Undist.C173_omni_frame_partial",
    "Kalibr.Undist.C173_identity_counterexample",
    "Kalibr.Undist.C173_mask_counterexample",
    "Kalibr.Undist.C173_null_partial",
    "Kalibr.Undist.C173_null_scale",
    "Kalibr.Undist.C173_null_size_counterexample",
    "Kalibr.Undist.C173_factory"
   ],
   "note": "The maps, the rectangles, the camera matrix and the factory are proved. Source pixels beyond the range of a short wrap around (C173_far_counterexample), a camera without distortion is changed (C173_identity_counterexample), the mask is neither undistorted nor scaled (C173_mask_counterexample), and with a scale the size of the image of the null undistorter can differ from that of its camera (C173_null_size_counterexample)."
  },
  {
   "property": "C174",
   "status": "partial",
   "theorems": [
    "Kalibr.Fov.C174_ratio",
    "Kalibr.Fov.C174_mask_partial",
    "Kalibr.Fov.C174_mask_counterexample",
    "Kalibr.Fov.C174_point"
   ],
   "note": "The ratios are proved for all masks. The mask is written only if it already has the size of the scaled image; a new mask stays empty (C174_mask_counterexample)."
  },
  {
   "property": "C175",
   "status": "partial",
   "theorems": [
    "Kalibr.Thr.C175_life_partial",
    "Kalibr.Thr.C175_interrupt_ends_partial",
    "Kalibr.Thr.C175_wait_partial",
    "Kalibr.Thr.C175_spurious_counterexample",
    "Kalibr.Thr.C175_start_busy_counterexample",
    "Kalibr.Thr.C175_two_starts_counterexample",
    "Kalibr.Thr.C175_create_counterexample",
    "Kalibr.Thr.C175_lost_interrupt_counterexample"
   ],
   "note": "Proved as trace refinement for every schedule in which the object is started only when it is not busy and the system can create threads. Otherwise: a start without waiting, or two starts at once, run the object twice and end the program (C175_start_busy_counterexample, C175_two_starts_counterexample); a failed creation leaves it busy for ever (C175_create_counterexample); an interrupt during process() is lost if the cycle time is eternal (C175_lost_interrupt_counterexample); a spurious wake-up makes wait return true too early (C175_spurious_counterexample)."
  },
  {
   "property": "C176",
   "status": "partial",
   "theorems": [
    "Kalibr.Stamp.C176_timespec_partial",
    "Kalibr.Stamp.C176_negative_counterexample",
    "Kalibr.Stamp.C176_huge_counterexample",
    "Kalibr.Stamp.C176_stop",
    "Kalibr.Stamp.C176_runs",
    "Kalibr.Stamp.C176_stop_twice_counterexample"
   ],
   "note": "Proved for times from zero to the end of time_t. Negative times give an invalid timespec (C176_negative_counterexample), larger ones undefined behaviour (C176_huge_counterexample); a timer that is stopped twice counts the first interval twice (C176_stop_twice_counterexample)."
  },
  {
   "property": "C177",
   "status": "partial",
   "theorems": [
    "Kalibr.LogFlag.C177_quiescent",
    "Kalibr.LogFlag.C177_level",
    "Kalibr.LogFlag.C177_location",
    "Kalibr.LogFlag.C177_streams",
    "Kalibr.LogFlag.C177_progress_partial",
    "Kalibr.LogFlag.C177_deadlock_counterexample"
   ],
   "note": "The switches are right in every quiescent state (C177_quiescent) of every schedule, and the settings are what the calls say (C177_level, C177_streams). That every call comes back is false: enableNamedStream and initializeLogLocation take the two mutexes in opposite orders (C177_deadlock_counterexample); C177_progress_partial proves that this is the only way to block."
  },
  {
   "property": "C178",
   "status": "partial",
   "theorems": [
    "Kalibr.LogPrint.C178_message",
    "Kalibr.LogPrint.C178_history",
    "Kalibr.LogPrint.C178_failed_counterexample",
    "Kalibr.LogPrint.C178_split",
    "Kalibr.LogPrint.C178_field",
    "Kalibr.LogPrint.C178_line",
    "Kalibr.LogPrint.C178_unknown",
    "Kalibr.LogPrint.C178_default",
    "Kalibr.LogPrint.C178_severity",
    "Kalibr.LogPrint.C178_all_printed_partial",
    "Kalibr.LogPrint.C178_exclusive_partial",
    "Kalibr.LogPrint.C178_alien_counterexample"
   ],
   "note": "Messages arrive whole after every history (C178_message, C178_history), formats are split without loss and filled in (C178_split, C178_line, C178_unknown, C178_default). Delivery once and in order is proved while the logger returns normally, exclusion while it throws only std::exception: otherwise the thread loses its next message (C178_alien_counterexample). A failed conversion loses the message (C178_failed_counterexample)."
  },
  {
   "property": "C179",
   "status": "partial",
   "theorems": [
    "Kalibr.Depth.C179_project",
    "Kalibr.Depth.C179_recover",
    "Kalibr.Depth.C179_history",
    "Kalibr.Depth.C179_parameters",
    "Kalibr.Depth.C179_distortion_counterexample",
    "Kalibr.Depth.C179_jacobian_counterexample",
    "Kalibr.Depth.C179_twice_counterexample",
    "Kalibr.Depth.C179_back_counterexample",
    "Kalibr.Depth.C179_intrinsics_counterexample",
    "Kalibr.Depth.C179_homogeneous_counterexample",
    "Kalibr.Depth.C179_homogeneous_partial",
    "Kalibr.Depth.C179_random_counterexample"
   ],
   "note": "Projection and validity (C179_project), that the keypoint determines the point (C179_recover), parameters, archives and histories (C179_parameters, C179_history) are proved. The rest of the statement is false: the distortion has no effect, the overload with derivatives reads an empty matrix, back projection always fails, the derivatives of the intrinsics are zero, and the inverse depth depends on the scale of homogeneous coordinates (the C179 counterexamples)."
  },
  {
   "property": "C180",
   "status": "partial",
   "theorems": [
    "Kalibr.Reuse.C180_exact",
    "Kalibr.Reuse.C180_columns_counterexample",
    "Kalibr.Reuse.C180_columns_lost",
    "Kalibr.Reuse.C180_entries_counterexample",
    "Kalibr.Reuse.C180_pattern_counterexample",
    "Kalibr.Reuse.C180_empty_counterexample",
    "Kalibr.Reuse.C180_ordering",
    "Kalibr.Reuse.C180_together",
    "Kalibr.Reuse.C180_room",
    "Kalibr.Reuse.C180_structure",
    "Kalibr.Reuse.C180_lost_partial",
    "Kalibr.Reuse.C180_lost_counterexample",
    "Kalibr.Reuse.C180_written"
   ],
   "note": "Proved: with init before each change of the pattern, every solution of every history hands exactly its matrix to the factorization and stays inside its buffers; the blown up ordering is a permutation and keeps blocks together; there is room for orderings, workspace and block structure after every history; the written pattern is symmetric. False in general, with counterexamples: changing the pattern without init reads column pointers never written, writes behind the end or factorizes another matrix; a matrix without columns writes through a null pointer; a structure without columns loses its arrays."
  },
  {
   "property": "C181",
   "status": "partial",
   "theorems": [
    "Kalibr.RsCov.C181_sqrt",
    "Kalibr.RsCov.C181_weight",
    "Kalibr.RsCov.C181_still",
    "Kalibr.RsCov.C181_singular_counterexample",
    "Kalibr.RsCov.C181_no_spline_counterexample",
    "Kalibr.RsCov.C181_map_partial",
    "Kalibr.RsCov.C181_map_counterexample"
   ],
   "note": "Proved: the square root, the error and the weight for every positive definite covariance and every history (C181_sqrt, C181_weight), the plain error at rest (C181_still), and that the map is the derivative of the error while the camera is oriented as the scene (C181_map_partial). False in general, with counterexamples: for a turned camera the map leaves out the rotation from the scene to the camera; nothing is known of the weight if the image moves back one row per row; without a spline the covariance of the keypoint is not used."
  },
  {
   "property": "C182",
   "status": "partial",
   "theorems": [
    "Kalibr.Printed.C182_perspective_counterexample",
    "Kalibr.Printed.C182_boxes",
    "Kalibr.Printed.C182_corners",
    "Kalibr.Printed.C182_cells",
    "Kalibr.Printed.C182_printable",
    "Kalibr.Printed.C182_default_counterexample",
    "Kalibr.Printed.C182_no_gap_counterexample",
    "Kalibr.Printed.C182_table",
    "Kalibr.Printed.C182_read",
    "Kalibr.Printed.C182_found"
   ],
   "note": "Proved for every view that keeps lines parallel: the cells that are printed (C182_cells), the word read from each of the four corners (C182_read), the identifier and the corners with their points on the target (C182_found), the equality of the two code tables (C182_table), when a page is printed (C182_printable), and the checkerboard (C182_boxes, C182_corners). False in general, with counterexamples: in perspective other cells are read, since they are interpolated bilinearly; without the optional list of identifiers to skip no page is printed; tags without gaps are printed but the target refuses them."
  },
  {
   "property": "C183",
   "status": "partial",
   "theorems": [
    "Kalibr.Random.C183_seed",
    "Kalibr.Random.C183_seed_counterexample",
    "Kalibr.Random.C183_uniform",
    "Kalibr.Random.C183_range",
    "Kalibr.Random.C183_reversed",
    "Kalibr.Random.C183_int",
    "Kalibr.Random.C183_each",
    "Kalibr.Random.C183_overflow_counterexample"
   ],
   "note": "Proved for all engines, histories and bounds whose difference is an int; seeds are reduced to 32 bits and far apart integer bounds overflow (counterexamples)."
  },
  {
   "property": "C184",
   "status": "partial",
   "theorems": [
    "Kalibr.Simple.C184_once_partial",
    "Kalibr.Simple.C184_clear",
    "Kalibr.Simple.C184_order",
    "Kalibr.Simple.C184_distinct",
    "Kalibr.Simple.C184_add",
    "Kalibr.Simple.C184_addShared",
    "Kalibr.Simple.C184_twice_counterexample",
    "Kalibr.Simple.C184_revert",
    "Kalibr.Simple.C184_edit",
    "Kalibr.Simple.C184_difference_counterexample"
   ],
   "note": "Proved for programs that hand each object to at most one owner; an error term added twice as owned is deleted twice, and the adapter does not compute minimal differences (counterexamples)."
  },
  {
   "property": "C185",
   "status": "partial",
   "theorems": [
    "Kalibr.Dense.C185_system",
    "Kalibr.Dense.C185_solution",
    "Kalibr.Dense.C185_lower",
    "Kalibr.Dense.C185_singular_counterexample"
   ],
   "note": "Proved for every factorization that solves symmetric systems without kernel; success is reported for singular systems too (counterexample)."
  },
  {
   "property": "C186",
   "status": "proved",
   "theorems": [
    "Kalibr.Schur.C186_schur",
    "Kalibr.Schur.C186_back",
    "Kalibr.Schur.C186_coupled_counterexample"
   ],
   "note": "For eliminated blocks that are regular and not coupled with each other; coupled ones give a wrong result (counterexample)."
  },
  {
   "property": "C187",
   "status": "partial",
   "theorems": [
    "Kalibr.OldOpt.C187_stops",
    "Kalibr.OldOpt.C187_iteration_partial",
    "Kalibr.OldOpt.C187_descent_partial",
    "Kalibr.OldOpt.C187_final_partial",
    "Kalibr.OldOpt.C187_newton_partial",
    "Kalibr.OldOpt.C187_failure_counterexample",
    "Kalibr.OldOpt.C187_final_counterexample",
    "Kalibr.OldOpt.C187_lambda_counterexample",
    "Kalibr.OldOpt.C187_order"
   ],
   "note": "proved if the linear solver solves every damped system and predicts a decrease. A failure of the solver undoes the last improvement, since the state is reverted although nothing was applied (C187_failure_counterexample). If the last iteration failed, the reported final objective is the one of the state that was given up (C187_final_counterexample). The estimate of the initial damping compares one entry and stores another, and can read outside of a block (C187_lambda_counterexample). optimizeDogLeg is the subject of C188"
  },
  {
   "property": "C188",
   "status": "partial",
   "theorems": [
    "Kalibr.OldDog.C188_region",
    "Kalibr.OldDog.C188_keeps",
    "Kalibr.OldDog.C188_descent",
    "Kalibr.OldDog.C188_ends",
    "Kalibr.OldDog.C188_cauchy_counterexample"
   ],
   "note": "all but the last sentence is proved, for non-negative objectives. The steepest descent step is too short or too long: the squared norm of the gradient is divided by the squared norm of the matrix times the gradient, so on a linear problem it can raise the objective (C188_cauchy_counterexample). Eliminated variables are not modelled: there the steps have different dimensions"
  },
  {
   "property": "C189",
   "status": "partial",
   "theorems": [
    "Kalibr.NumDiff.C189_estimate",
    "Kalibr.NumDiff.C189_exact",
    "Kalibr.NumDiff.C189_error",
    "Kalibr.NumDiff.C189_term",
    "Kalibr.NumDiff.C189_camera",
    "Kalibr.NumDiff.C189_camera_exact",
    "Kalibr.NumDiff.C189_intrinsic_partial",
    "Kalibr.NumDiff.C189_intrinsic_counterexample",
    "Kalibr.NumDiff.C189_stale_counterexample"
   ],
   "note": "proved but for two parts. The estimates by the intrinsics and by the distortion take each column at a point where the parameters of the columns before are smaller by two steps, since the local copy is not reset (C189_intrinsic_counterexample; what is computed instead is C189_intrinsic_partial). After the estimate an error term holds the error of the last perturbed state (C189_stale_counterexample). Rounding is not modelled"
  },
  {
   "property": "C190",
   "status": "proved",
   "theorems": [
    "Kalibr.CamFactory.C190_create",
    "Kalibr.CamFactory.C190_unknown",
    "Kalibr.CamFactory.C190_distinct"
   ],
   "note": "the 27 supported cameras are listed by their parts; the FOV distortion and the extended unified and double sphere projections exist only without mask and rolling shutter"
  },
  {
   "property": "C191",
   "status": "proved",
   "theorems": [
    "Kalibr.Ccs.C191_read",
    "Kalibr.Ccs.C191_order",
    "Kalibr.Ccs.C191_name"
   ],
   "note": "All matrices in compressed columns; the sort is any sorted permutation. Values are kept exact (the nine digits of the text are not modelled)."
  },
  {
   "property": "C192",
   "status": "proved",
   "theorems": [
    "Kalibr.Ids.C192_counter",
    "Kalibr.Ids.C192_order",
    "Kalibr.Ids.C192_increment"
   ],
   "note": "for every number of increments; the hash and the stream operator are not modelled"
  },
  {
   "property": "C193",
   "status": "proved",
   "theorems": [
    "Kalibr.VecDv.C193_call",
    "Kalibr.VecDv.C193_revert",
    "Kalibr.VecDv.C193_new"
   ],
   "note": "for all histories; an update of another size fails an assertion of Eigen and is undefined"
  },
  {
   "property": "C194",
   "status": "partial",
   "theorems": [
    "Kalibr.Quadratic.C194_partial",
    "Kalibr.Quadratic.C194_counterexample",
    "Kalibr.Quadratic.C194_linear",
    "Kalibr.Quadratic.C194_sign"
   ],
   "note": "proved but for the equation a x^2 = 0: there the second result is 0 / 0, not a number, instead of the solution zero (counterexample). Without a quadratic term only the second result is finite"
  },
  {
   "property": "C195",
   "status": "partial",
   "theorems": [
    "Kalibr.RCov.C195_covariance_partial",
    "Kalibr.RCov.C195_counterexample",
    "Kalibr.RCov.C195_logarithm",
    "Kalibr.RCov.C195_determinant"
   ],
   "note": "proved for every range of at least two columns. A range of one column raises, so that the covariance of a scalar variable cannot be recovered (counterexample)"
  },
  {
   "property": "C196",
   "status": "partial",
   "theorems": [
    "Kalibr.Single.C196_one_partial",
    "Kalibr.Single.C196_same",
    "Kalibr.Single.C196_threads_partial",
    "Kalibr.Single.C196_threads_end",
    "Kalibr.Single.C196_counterexample"
   ],
   "note": "proved for one thread, and for any number of threads that start after the object was made. Threads that ask first may each get an object of their own, or an exception (counterexample)"
  },
  {
   "property": "C197",
   "status": "partial",
   "theorems": [
    "Kalibr.Homog.C197_history_partial",
    "Kalibr.Homog.C197_corners",
    "Kalibr.Homog.C197_detected",
    "Kalibr.Homog.C197_counterexample"
   ],
   "note": "proved for quadrilaterals for which OpenCV finds a homography. For others its empty matrix is read (counterexample)"
  },
  {
   "property": "C198",
   "status": "partial",
   "theorems": [
    "Kalibr.MatDv.C198_dimension",
    "Kalibr.MatDv.C198_update_partial",
    "Kalibr.MatDv.C198_counterexample",
    "Kalibr.MatDv.C198_revert",
    "Kalibr.MatDv.C198_jacobian"
   ],
   "note": "proved if the last entry is estimated or memory follows the update. Otherwise an update of the right size is read beyond its end (counterexample)"
  },
  {
   "property": "C199",
   "status": "partial",
   "theorems": [
    "Kalibr.Lm.C199_copy_partial",
    "Kalibr.Lm.C199_swap",
    "Kalibr.Lm.C199_set",
    "Kalibr.Lm.C199_keypoint",
    "Kalibr.Lm.C199_counterexample"
   ],
   "note": "proved for programs that do not write through the pointer to a descriptor, and for keypoints with a point. The copy shares its descriptor; a keypoint without a point leaves the landmark half changed, or is read through a null pointer (counterexample)"
  },
  {
   "property": "C200",
   "status": "partial",
   "theorems": [
    "Kalibr.Kinds.C200_blocks",
    "Kalibr.Kinds.C200_dense",
    "Kalibr.Kinds.C200_agree_partial",
    "Kalibr.Kinds.C200_counterexample"
   ],
   "note": "proved for tolerances that are not negative. For a negative one the compressed matrix uses its absolute value and the others keep all entries (counterexample)"
  }
 ]
}