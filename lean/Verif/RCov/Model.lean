import Verif.Common
import Mathlib.Analysis.SpecialFunctions.Log.Base
import Mathlib.Algebra.BigOperators.Intervals

/-!
# The covariance from a triangular factor

A model of `checkColumnIndices`, `computeCovariance` and `computeSumLogDiagR` (aslam_incremental_calibration/
aslam_incremental_calibration/include/aslam_incremental_calibration/algorithms/matrixOperations.tpp:33-92) over the real numbers.
The matrix `R` is a function of the row and the column.  The indices into the covariance are those into `R`: `Sigma_l` of the
code is `l - colBegin`, which is undone at the end.  The loops that only add up are sums.
-/

namespace Kalibr.RCov

/-- A matrix that is being filled. -/
abbrev Mat := ℕ → ℕ → ℝ

/-- `covariance(i, j) = v`. -/
def set (M : Mat) (i j : ℕ) (v : ℝ) : Mat := fun x y => if x = i ∧ y = j then v else M x y

/-- `checkColumnIndices` for a matrix of `n` columns (matrixOperations.tpp:33-45). -/
def check (n colBegin colEnd : ℕ) : Out Unit :=
  if colBegin ≥ colEnd then .raise else if colEnd ≥ n then .raise else .ok ()

/-- The body of the loop over the rows above the diagonal (matrixOperations.tpp:65-74). -/
noncomputable def row (R : Mat) (n l i : ℕ) (cov : Mat) : Mat :=
  let temp1 := ∑ j ∈ Finset.Ico (i + 1) (l + 1), R i j * cov j l
  let temp2 := ∑ j ∈ Finset.Ico (l + 1) n, R i j * cov l j
  let cov := set cov i l (1 / R i i * (-temp1 - temp2))
  set cov l i (cov i l)

/-- The first `k` rows above the diagonal, from the diagonal upwards (matrixOperations.tpp:63-75). -/
noncomputable def rows (R : Mat) (n l : ℕ) (cov : Mat) : ℕ → Mat
  | 0 => cov
  | k + 1 => row R n l (l - 1 - k) (rows R n l cov k)

/-- The body of the loop over the columns (matrixOperations.tpp:57-75). -/
noncomputable def column (R : Mat) (n colBegin l : ℕ) (cov : Mat) : Mat :=
  let temp1 := ∑ j ∈ Finset.Ico (l + 1) n, R l j * cov j l
  let cov := set cov l l (1 / R l l * (1 / R l l - temp1))
  rows R n l cov (l - colBegin)

/-- The last `m` columns (matrixOperations.tpp:54-76). -/
noncomputable def columns (R : Mat) (n colBegin : ℕ) : ℕ → Mat
  | 0 => fun _ _ => 0
  | m + 1 => column R n colBegin (n - 1 - m) (columns R n colBegin m)

/-- `computeCovariance`: the size of the result and its elements (matrixOperations.tpp:47-79). -/
noncomputable def computeCovariance (R : Mat) (n colBegin colEnd : ℕ) : Out (ℕ × Mat) :=
  (check n colBegin colEnd).bind fun _ =>
    let dim := n - colBegin
    let covariance := columns R n colBegin dim
    .ok (colEnd - colBegin + 1, fun i j => covariance (colBegin + i) (colBegin + j))

/-- `std::numeric_limits<double>::epsilon()` -/
noncomputable def epsilon : ℝ := 1 / 2 ^ 52

/-- `computeSumLogDiagR` (matrixOperations.tpp:81-92). -/
noncomputable def computeSumLogDiagR (R : Mat) (n colBegin colEnd : ℕ) : Out ℝ :=
  (check n colBegin colEnd).bind fun _ =>
    .ok (((List.range' colBegin (colEnd + 1 - colBegin)).map fun i =>
      if |R i i| > epsilon then Real.logb 2 |R i i| else 0).sum)

end Kalibr.RCov
