import Verif.Jacobian.Model
import Verif.Sparse.Model

/-!
# Model of the normal equations and of the block Cholesky linear system solver

Sources (all in `/repo/aslam_optimizer/aslam_backend/src/`): `JacobianContainer.cpp` 103-167,
`ErrorTermDs.cpp` 77-90 (the same code as `ErrorTermFs::buildHessianImplementation`,
`include/aslam_backend/backend/implementation/ErrorTerm.hpp` 97-109),
`BlockCholeskyLinearSystemSolver.cpp`.

Simplifications: exact arithmetic in a commutative ring; vectors are functions of the index; the sparse
factorisation is a parameter (a function of the matrix and the right-hand side that may fail); the
debug-only assertions are not checked, a violation of them is `ub` where it makes Eigen read or write
outside a matrix.
-/

namespace Kalibr.Normal

open Jacobian Sparse

variable {D K : Type} [CommRing K]

/-- The place of a design variable in the block matrix. -/
def place (env : Env D K) (p : D × Mat K) : Nat := (env.blockIndex p.1).toNat

/-- The copy of the map with scaled Jacobians, `JacobianContainer.cpp` 157-162. -/
def scaledMap (env : Env D K) (S : Mat K) (m : List (D × Mat K)) : List (D × Mat K) :=
  m.map fun p => (p.1, (S.transpose.mul p.2).scale (env.scaling p.1))

/-- `buildCorrelatedHessianBlock`, `JacobianContainer.cpp` 103-128: from the block of `J1` to the right. -/
def buildCorrelated (env : Env D K) (J1 : Mat K) (j1 : Nat) : List (D × Mat K) → SBM K → SBM K
  | [], H => H
  | q :: qs, H =>
    buildCorrelated env J1 j1 qs (H.modBlk j1 (place env q) fun d => d.add (J1.transpose.mul q.2))

/-- `outRhs.segment(b, J.cols()) -= J.transpose() * e`. -/
def subSegment (rhs : Nat → K) (b : Nat) (J : Mat K) (e : Nat → K) : Nat → K := fun n =>
  if b ≤ n ∧ n < b + J.cols then rhs n - ∑ k ∈ Finset.range J.rows, J.get k (n - b) * e k else rhs n

/-- `buildHessianBlock`, `JacobianContainer.cpp` 131-149. -/
def buildHessianBlock (env : Env D K) (e : Nat → K) :
    List (D × Mat K) → SBM K → (Nat → K) → SBM K × (Nat → K)
  | [], H, rhs => (H, rhs)
  | p :: ps, H, rhs =>
    buildHessianBlock env e ps (buildCorrelated env p.2 (place env p) (p :: ps) H)
      (subSegment rhs (base H.rbi (place env p)) p.2 e)

/-- The block of a variable is inside the matrix and has the size of its Jacobian. -/
def blockOk (env : Env D K) (H : SBM K) (p : D × Mat K) : Bool :=
  0 ≤ env.blockIndex p.1 ∧ place env p < H.rbi.length ∧ place env p < H.cbi.length ∧
    size H.rbi (place env p) = p.2.cols ∧ size H.cbi (place env p) = p.2.cols

/-- `evaluateHessian`, `JacobianContainer.cpp` 151-167. -/
def evaluateHessian (env : Env D K) (c : Container D K) (e : Nat → K) (S : Mat K) (H : SBM K)
    (rhs : Nat → K) : Out (SBM K × (Nat → K)) :=
  if c.rows ≠ S.rows ∨ (c.map.all fun p => p.2.rows = S.rows ∧ blockOk env H p) = false then .ub
  else
    .ok (buildHessianBlock env
      (fun k => ∑ a ∈ Finset.range S.rows, S.get a k * e a) (scaledMap env S c.map) H rhs)

/-- What an error term contributes: its Jacobians, its error vector, the square root of its inverse
covariance and the M-estimator weight of its current squared error. -/
structure Term (D K : Type) where
  jac : Container D K
  err : Nat → K
  sqrtInvR : Mat K
  weight : K

/-- `buildHessianImplementation`, `ErrorTermDs.cpp` 77-90. -/
def buildHessian (env : Env D K) (sqrt : K → K) (useMEstimator : Bool) (t : Term D K)
    (st : SBM K × (Nat → K)) : Out (SBM K × (Nat → K)) :=
  evaluateHessian env t.jac t.err (t.sqrtInvR.scale (if useMEstimator then sqrt t.weight else 1)) st.1 st.2

/-- `clear(false)`, `sparse_block_matrix.hpp` 97-112: the blocks stay and are set to zero. -/
def clear (H : SBM K) : SBM K :=
  { H with bcols := H.bcols.map fun m => m.map fun p => (p.1, Mat.zero p.2.rows p.2.cols) }

/-- The matrix made by `initMatrixStructureImplementation`, `BlockCholeskyLinearSystemSolver.cpp` 46-55,
from the dimensions of the design variables. -/
def initMatrix (dims : List Nat) : SBM K :=
  let blocks := (List.range dims.length).map fun i => (dims.take (i + 1)).sum
  SBM.new blocks blocks

/-- The loop over the error terms, `BlockCholeskyLinearSystemSolver.cpp` 66-71. -/
def buildLoop (env : Env D K) (sqrt : K → K) (useMEstimator : Bool) :
    List (Term D K) → SBM K × (Nat → K) → Out (SBM K × (Nat → K))
  | [], st => .ok st
  | t :: ts, st => (buildHessian env sqrt useMEstimator t st).bind (buildLoop env sqrt useMEstimator ts)

/-- `buildSystem`, `BlockCholeskyLinearSystemSolver.cpp` 58-72. -/
def buildSystem (env : Env D K) (sqrt : K → K) (useMEstimator : Bool) (ts : List (Term D K))
    (H : SBM K) : Out (SBM K × (Nat → K)) :=
  buildLoop env sqrt useMEstimator ts (clear H, fun _ => 0)

/-- `block.diagonal() += f`. -/
def addDiag (a : Mat K) (f : Nat → K) : Mat K :=
  { a with get := fun i j => if i = j then a.get i j + f i else a.get i j }

/-- The loops over the diagonal blocks, `BlockCholeskyLinearSystemSolver.cpp` 79-85 and 92-97; `i` counts
up from the given block, `rowBase` is the running sum of block rows. -/
def diagLoop (d : Nat → K) : Nat → Nat → Nat → SBM K → SBM K
  | 0, _, _, H => H
  | n + 1, i, rowBase, H =>
    let H := H.modBlk i i fun b => addDiag b fun k => d (rowBase + k)
    diagLoop d n (i + 1) (rowBase + size H.rbi i) H

/-- `solveSystem`, `BlockCholeskyLinearSystemSolver.cpp` 74-104: the new matrix, the matrix given to the
factorisation and the result.  The factorisation does not change the matrix. -/
def solveSystem (solver : SBM K → (Nat → K) → Option (Nat → K)) (cond : Option (Nat → K)) (H : SBM K)
    (rhs : Nat → K) : SBM K × SBM K × Option (Nat → K) :=
  match cond with
  | none => (H, H, solver H rhs)
  | some c =>
    let H1 := diagLoop (fun k => c k * c k) H.rbi.length 0 0 H
    let out := solver H1 rhs
    let H2 := diagLoop (fun k => -c k) H1.rbi.length 0 0 H1
    (H2, H1, out)

/-- `rhsJtJrhs`, `BlockCholeskyLinearSystemSolver.cpp` 172-176, with `rightMultiply` of
`SparseBlockMatrixWrapper.cpp` 82-86. -/
def rhsJtJrhs (H : SBM K) (rhs : Nat → K) : K :=
  ∑ n ∈ Finset.range (total H.rbi), rhs n * H.mulVec rhs n

end Kalibr.Normal
