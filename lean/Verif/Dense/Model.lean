import Verif.Sparse.Model

/-!
# The dense linear solver

Models `/repo/aslam_optimizer/aslam_sparse_block_matrix/include/aslam_sparse_block_matrix/linear_solver_dense.h` on the
sparse block matrices of `Sparse`.  The factorization of Eigen is a parameter: a function of the size, the entries it looks
at and the right-hand side.  Matrices whose layouts of rows and columns differ are outside the model (`ub`).
-/

namespace Kalibr.Dense

open Sparse

variable {K : Type}

/-- `c_idx` before block column `c` (linear_solver_dense.h:62, 88). -/
def colIdx (A : SBM K) (c : Nat) : Nat := (List.range c).foldl (fun s k => s + size A.cbi k) 0

/-- The loops that fill `H` (linear_solver_dense.h:58-89). -/
def fill [Zero K] (A : SBM K) : Nat → Nat → K :=
  A.blocks.foldl (fun H b =>
    if b.1 ≤ b.2.1 then
      SBM.toDense.assign H (base A.rbi b.1) (colIdx A b.2.1) (size A.rbi b.1) (size A.cbi b.2.1) b.2.2
    else H) (fun _ _ => 0)

/-- `H.selfadjointView<Eigen::Upper>()` (linear_solver_dense.h:104). -/
def view (H : Nat → Nat → K) : Nat → Nat → K := fun i j => if i ≤ j then H i j else H j i

/-- `solve` (linear_solver_dense.h:52-109): the contents of `x` and the value returned. -/
def solve [Zero K] (ldlt : Nat → (Nat → Nat → K) → (Nat → K) → (Nat → K)) (A : SBM K) (b : Nat → K) :
    Out ((Nat → K) × Bool) :=
  if A.rbi ≠ A.cbi then .ub else .ok (ldlt (total A.cbi) (view (fill A)) b, true)

end Kalibr.Dense
