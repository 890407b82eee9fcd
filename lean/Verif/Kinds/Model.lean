import Verif.Sparse.Props
import Verif.CCM.Props

/-!
# The three kinds of matrices

`DenseMatrix` (aslam_optimizer/aslam_backend/src/DenseMatrix.cpp, Dense) and `SparseBlockMatrixWrapper`
(aslam_optimizer/aslam_backend/src/SparseBlockMatrixWrapper.cpp, Wrapper), beside `CompressedColumnMatrix` (`Verif.CCM`).
Exact arithmetic.
-/

namespace Kalibr.Kinds

open Sparse CCM

variable {K : Type} [AddCommGroup K] [LinearOrder K]

/-- `DenseMatrix::fromDenseTolerance` (Dense 62-71): the loops, on a copy of the matrix. -/
def denseFrom (M : Mat K) (tol : K) : Mat K :=
  (List.range M.rows).foldl (fun A r => (List.range M.cols).foldl (fun (A : Mat K) c =>
    if |A.get r c| ≤ tol then { A with get := fun i j => if i = r ∧ j = c then 0 else A.get i j } else A) A) M

/-- The places of a block matrix in the order of the loops of Wrapper 60-75: block column, block row, column, row. -/
def places (A : SBM K) : List (Nat × Nat × Nat × Nat) :=
  (List.range A.cbi.length).flatMap fun bc => (List.range A.rbi.length).flatMap fun br =>
    (List.range (size A.cbi bc)).flatMap fun dc => (List.range (size A.rbi br)).map fun dr => (bc, br, dc, dr)

/-- `(*B)(i, j) = v`. -/
def put (i j : Nat) (v : K) (B : Mat K) : Mat K := { B with get := fun a b => if a = i ∧ b = j then v else B.get a b }

/-- The body of the loops (Wrapper 67-73).  The block is made the first time that it is needed, and found later. -/
def wrapStep (M : Mat K) (tol : K) (A : SBM K) (q : Nat × Nat × Nat × Nat) : SBM K :=
  let v := M.get (base A.rbi q.2.1 + q.2.2.2) (base A.cbi q.1 + q.2.2.1)
  if tol < |v| then A.modBlk q.2.1 q.1 (put q.2.2.2 q.2.2.1 v) else A

/-- `SparseBlockMatrixWrapper::fromDenseTolerance` (Wrapper 54-77): what it answers and what it leaves.  `clear(true)` removes
all blocks. -/
def wrapFrom (A : SBM K) (M : Mat K) (tol : K) : Out Unit × SBM K :=
  if M.rows ≠ total A.rbi then (.raise, A)
  else if M.cols ≠ total A.cbi then (.raise, A)
  else (.ok (), (places A).foldl (wrapStep M tol) (SBM.new A.rbi A.cbi))

/-! ## Specification -/

/-- The entries whose absolute value is above the tolerance; the others are zero. -/
def above (M : Mat K) (tol : K) : Mat K := ⟨M.rows, M.cols, fun i j => if tol < |M.get i j| then M.get i j else 0⟩

end Kalibr.Kinds
