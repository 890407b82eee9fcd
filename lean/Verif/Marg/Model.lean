import Verif.Common
import Verif.Mat
import Mathlib.Algebra.Field.Defs
import Mathlib.Algebra.BigOperators.Group.Finset.Basic

/-!
# Model of the marginalisation of design variables

Sources, in `aslam_optimizer/aslam_backend/src`: `Marginalizer.cpp`, `MarginalizationPriorErrorTerm.cpp`,
`DenseQrLinearSystemSolver.cpp`, `LinearSystemSolver.cpp`.

Design variables and error terms are named by natural numbers.  What they deliver (dimensions, weighted error, the blocks
of the weighted Jacobian) is given (`Terms`); what the function changes in them is the `World`.  `double` is a field,
`int` does not overflow.  The QR decomposition and the inverse of a square matrix are parameters.  Not modelled: the rank of
the Jacobian, which is only logged; the scalar error returned by `evaluateError`, which is not used.
-/

namespace Kalibr.Marg

variable {K : Type} [Field K]

/-- What the design variables and error terms deliver: `minimalDimensions`, `dimension`, `getWeightedError` and the blocks
of `getWeightedJacobians`. -/
structure Terms (K : Type) where
  dim : Nat → Nat
  edim : Nat → Nat
  err : Nat → Nat → K
  jac : Nat → List (Nat × Mat K)

/-- `_blockIndex` and `_columnBase` of the design variables, `_rowBase` of the error terms. -/
structure World where
  blockIndex : Nat → Int
  columnBase : Nat → Int
  rowBase : Nat → Nat

/-- Marginalizer.cpp 36-48: insertion in a set, "already there". -/
def hasDuplicate (seen : List Nat) : List Nat → Bool
  | [] => false
  | a :: l => if a ∈ seen then true else hasDuplicate (a :: seen) l

/-- Marginalizer.cpp 51-72: the dimension of the removed variables, the remaining variables, the variables in the top
block. `k` counts the variables, `dimTop` their dimensions. -/
def partition (dim : Nat → Nat) (toRemove : Int) (numTop : Nat) :
    List Nat → Nat → Nat → Nat × List Nat × List Nat
  | [], _, _ => (0, [], [])
  | v :: vs, k, dimTop =>
    let r := partition dim toRemove numTop vs (k + 1) (dimTop + dim v)
    let top := if dimTop < numTop then v :: r.2.2 else r.2.2
    if (k : Int) < toRemove then (dim v + r.1, r.2.1, top) else (r.1, v :: r.2.1, top)

/-- `setBlockIndex` and `setColumnBase` of a variable (DesignVariable.cpp 69-72, 99-102). -/
def World.setVar (W : World) (v : Nat) (o : Int × Int) : World :=
  { W with
    blockIndex := fun u => if u = v then o.1 else W.blockIndex u
    columnBase := fun u => if u = v then o.2 else W.columnBase u }

/-- `setRowBase` (ErrorTerm.cpp 183-186). -/
def World.setRow (W : World) (e : Nat) (r : Nat) : World :=
  { W with rowBase := fun u => if u = e then r else W.rowBase u }

/-- Marginalizer.cpp 74-86: the variables get consecutive indices and columns; the old ones and the number of columns are
returned. -/
def assignColumns (dim : Nat → Nat) : List Nat → Nat → Nat → World → World × List (Int × Int) × Nat
  | [], _, columnBase, W => (W, [], columnBase)
  | v :: vs, i, columnBase, W =>
    let o := (W.blockIndex v, W.columnBase v)
    let r := assignColumns dim vs (i + 1) (columnBase + dim v) (W.setVar v (i, columnBase))
    (r.1, o :: r.2.1, r.2.2)

/-- Marginalizer.cpp 88-95: the error terms get consecutive rows. -/
def assignRows (edim : Nat → Nat) : List Nat → Nat → World → World × List Nat × Nat
  | [], d, W => (W, [], d)
  | e :: es, d, W =>
    let o := W.rowBase e
    let r := assignRows edim es (d + edim e) (W.setRow e d)
    (r.1, o :: r.2.1, r.2.2)

/-- Marginalizer.cpp 184-188. -/
def restoreColumns : List Nat → List (Int × Int) → World → World
  | v :: vs, o :: os, W => restoreColumns vs os (W.setVar v o)
  | _, _, W => W

/-- Marginalizer.cpp 189-193. -/
def restoreRows : List Nat → List Nat → World → World
  | e :: es, o :: os, W => restoreRows es os (W.setRow e o)
  | _, _, W => W

/-- LinearSystemSolver.cpp 17-22: the segment of the right-hand side of each error term. -/
def buildErrors (T : Terms K) (W : World) (jrows : Nat) : List Nat → (Nat → K) → Out (Nat → K)
  | [], b => .ok b
  | e :: es, b =>
    if W.rowBase e + T.edim e ≤ jrows then
      buildErrors T W jrows es fun p =>
        if W.rowBase e ≤ p ∧ p < W.rowBase e + T.edim e then -(T.err e (p - W.rowBase e)) else b p
    else .ub

/-- DenseQrLinearSystemSolver.cpp 68-70: the blocks of one error term are written into the Jacobian. -/
def writeBlocks (W : World) (e : Nat) : List (Nat × Mat K) → Mat K → Out (Mat K)
  | [], J => .ok J
  | q :: qs, J =>
    if 0 ≤ W.columnBase q.1 ∧ (W.columnBase q.1).toNat + q.2.cols ≤ J.cols ∧ W.rowBase e + q.2.rows ≤ J.rows then
      writeBlocks W e qs
        { J with get := fun p c =>
            if W.rowBase e ≤ p ∧ p < W.rowBase e + q.2.rows ∧ (W.columnBase q.1).toNat ≤ c ∧
              c < (W.columnBase q.1).toNat + q.2.cols then
              q.2.get (p - W.rowBase e) (c - (W.columnBase q.1).toNat)
            else J.get p c }
    else .ub

/-- DenseQrLinearSystemSolver.cpp 33-38 and 61-72, `buildSystem`: the Jacobian matrix, at first zero. -/
def buildJacobian (T : Terms K) (W : World) : List Nat → Mat K → Out (Mat K)
  | [], J => .ok J
  | e :: es, J => do
    let J ← writeBlocks W e (T.jac e) J
    buildJacobian T W es J

/-- `triangularView<Eigen::Upper>()` (Marginalizer.cpp 148). -/
def upper (M : Mat K) : Mat K := { M with get := fun i j => if i ≤ j then M.get i j else 0 }

/-- `MarginalizationPriorErrorTerm`: `_designVariables`, `_d` and `_R`, which is square with `size` rows. -/
structure Prior (K : Type) where
  vars : List Nat
  size : Nat
  d : Nat → K
  R : Nat → Nat → K

/-- MarginalizationPriorErrorTerm.cpp 58-78, `getDifferenceSinceMarginalization`: the differences of the variables, one
after the other. -/
def Prior.difference (P : Prior K) (dim : Nat → Nat) (δ : Nat → Nat → K) : Nat → K := fun j =>
  (P.vars.flatMap fun v => (List.range (dim v)).map (δ v)).getD j 0

/-- MarginalizationPriorErrorTerm.cpp 44-55: the error vector. -/
def Prior.error (P : Prior K) (dim : Nat → Nat) (δ : Nat → Nat → K) (i : Nat) : K :=
  -(P.d i - ∑ j ∈ Finset.range P.size, P.R i j * P.difference dim δ j)

/-- MarginalizationPriorErrorTerm.cpp 53: the squared error, with the identity as weight (25). -/
def Prior.cost (P : Prior K) (dim : Nat → Nat) (δ : Nat → Nat → K) : K :=
  ∑ i ∈ Finset.range P.size, P.error dim δ i * P.error dim δ i

/-- MarginalizationPriorErrorTerm.cpp 80-95: the block of the Jacobian of the error for each of the variables, of which the
columns start at `colIndex`; `M` is the Jacobian of `minimalDifferenceAndJacobian`. -/
def Prior.jacobians (P : Prior K) (dim : Nat → Nat) (M : Nat → Nat → Nat → K) : List Nat → Nat → List (Nat × (Nat → Nat → K))
  | [], _ => []
  | v :: vs, colIndex =>
    (v, fun i j => ∑ e ∈ Finset.range (dim v), P.R i (colIndex + e) * M v e j) ::
      P.jacobians dim M vs (colIndex + dim v)

/-- What `marginalize` leaves behind: the indices in the design variables and error terms, what was appended to
`outDesignVariablesInRTop`, and the prior with the covariance or the exception. -/
structure Result (K : Type) where
  world : World
  top : List Nat
  out : Out (Prior K × Option (Mat K))

/-- Marginalizer.cpp 152-160: the covariance. `inverse()` of a matrix that is not square and a block that is larger than
the matrix are undefined. -/
def covariance (inv : Mat K → Mat K) (R : Mat K) (numTop : Nat) : Out (Option (Mat K)) :=
  if 0 < numTop then
    (if R.rows ≠ R.cols then .ub
     else if (inv R).rows < numTop then .ub
     else .ok (some ⟨numTop, numTop, ((inv R).mul (inv R).transpose).get⟩))
  else .ok none

/-- Marginalizer.cpp 97-180: from the numbered variables and terms to the prior. -/
def buildPrior (T : Terms K) (qr : Mat K → Mat K × Mat K) (inv : Mat K → Mat K) (W : World) (ets : List Nat)
    (jrows jcols removed : Nat) (remaining : List Nat) (numTop : Nat) : Out (Prior K × Option (Mat K)) := do
  let b ← buildErrors T W jrows ets fun _ => 0
  let J ← buildJacobian T W ets (Mat.zero jrows jcols)
  if jrows < jcols then .raise
  else do
    let Q := (qr J).1
    let R := upper (qr J).2
    let cov ← covariance inv R numTop
    if R.rows < numTop then .raise
    else if R.cols < numTop then .raise
    else if remaining = [] then .raise
    else return (⟨remaining, jcols - removed, fun i => ∑ k ∈ Finset.range jrows, Q.get k (removed + i) * b k,
      fun i j => R.get (removed + i) (removed + j)⟩, cov)

/-- Marginalizer.cpp 23-194, `marginalize`. -/
def marginalize (T : Terms K) (qr : Mat K → Mat K × Mat K) (inv : Mat K → Mat K) (W : World) (dvs ets : List Nat)
    (toRemove : Int) (numTop : Nat) : Result K :=
  if hasDuplicate [] dvs then ⟨W, [], .raise⟩
  else if hasDuplicate [] ets then ⟨W, [], .raise⟩
  else
    let p := partition T.dim toRemove numTop dvs 0 0
    let c := assignColumns T.dim dvs 0 0 W
    let r := assignRows T.edim ets 0 c.1
    match buildPrior T qr inv r.1 ets r.2.2 c.2.2 p.1 p.2.1 numTop with
    | .ok res => ⟨restoreRows ets r.2.1 (restoreColumns dvs c.2.1 r.1), p.2.2, .ok res⟩
    | .raise => ⟨r.1, p.2.2, .raise⟩
    | .ub => ⟨r.1, p.2.2, .ub⟩

end Kalibr.Marg
