import Verif.BSpline.Model
import Verif.Sparse.Model
import Mathlib.Analysis.Real.Sqrt

/-!
# Model of the integrals of squared derivatives of a spline, and of the motion error terms built on them

Sources:
* `aslam_nonparametric_estimation/aslam_bsplines/src/BSpline.cpp` (cited as `BSpline.cpp`);
* `aslam_nonparametric_estimation/aslam_splines/include/aslam_splines/implementation/BSplineMotionError.hpp`
  and `BSplineMotionErrorFactory.hpp`;
* `aslam_optimizer/aslam_backend/src/MarginalizationPriorErrorTerm.cpp`;
* `aslam_optimizer/aslam_backend_expressions/include/aslam_backend_expressions/implementation/`
  `DesignVariableMappedVector.hpp`.

`double` is a linearly ordered field (exact arithmetic).  A dense matrix whose size is known is a function of
two indices; a weight matrix given by the caller has a run-time size (`Mat`).  Indices do not overflow.  The
dimension `D` of a coefficient is at least 1 (the loop that builds the layout of the sparse matrix does not end
for `D = 0`).
-/

namespace Kalibr.Motion

open BSpline Sparse

variable {K : Type} [Field K] [LinearOrder K] [IsStrictOrderedRing K] {D : Nat}

/-- Product of two matrices with inner dimension `n`. -/
def mmul (n : Nat) (A B : Nat → Nat → K) : Nat → Nat → K := fun i j =>
  ∑ a ∈ Finset.range n, A i a * B a j

/-- Transpose. -/
def tr (A : Nat → Nat → K) : Nat → Nat → K := fun i j => A j i

/-- `Vi` (`BSpline.cpp` 1276-1302): the integrals of the products of two powers over a segment. -/
def Vi (s : Spline K D) (seg : Nat) : Out (Nat → Nat → K) :=
  if numValidTimeSegments s.order s.knots.length ≤ seg then .raise
  else do
    let I ← timeInterval s seg
    return fun r c => 1 / ((r + c : Nat) + 1) * (I.2 - I.1)

/-- `Dii` (`BSpline.cpp` 1483-1499): differentiation of the vector of powers. -/
def Dii (s : Spline K D) (seg : Nat) : Out (Nat → Nat → K) :=
  if s.basis.length ≤ seg then .raise
  else do
    let I ← timeInterval s seg
    let recip := if 0 < I.2 - I.1 then 1 / (I.2 - I.1) else 0
    return fun i j => if j = i + 1 ∧ i + 1 < s.order then ((i : K) + 1) * recip else 0

/-- `Bij` (`BSpline.cpp` 1378-1389): column `columnIndex` of the basis matrix, once for each dimension. -/
def Bij (order : Nat) (M : Nat → Nat → K) (columnIndex : Nat) : Nat → Nat → K := fun a d =>
  if a / order = d then M (a % order) columnIndex else 0

/-- `Mi` (`BSpline.cpp` 1391-1403). -/
def Mi (s : Spline K D) (seg : Nat) : Out (Nat → Nat → K) :=
  match s.basis[seg]? with
  | none => .raise
  | some M => .ok fun a c => Bij s.order M (c / D) a (c % D)

/-- The loop `V = Dm.transpose() * V * Dm` (`BSpline.cpp` 1527-1530, 1564-1567). -/
def derive (order : Nat) (Dm : Nat → Nat → K) : Nat → (Nat → Nat → K) → (Nat → Nat → K)
  | 0, V => V
  | n + 1, V => derive order Dm n (mmul order (mmul order (tr Dm) V) Dm)

/-- The tolerance `1e-14` for the symmetry of the weight matrix (`BSpline.cpp` 1538). -/
def symTol : K := 1 / 100000000000000

/-- The check in the loop over the weight matrix (`BSpline.cpp` 1534-1538). -/
def nearSymmetric (D : Nat) (W : Mat K) : Prop :=
  ∀ r, r < D → ∀ c, c < D → |W.get c r - W.get r c| ≤ symTol

instance (W : Mat K) : Decidable (nearSymmetric D W) := by unfold nearSymmetric; infer_instance

/-- `segmentQuadraticIntegral` (`BSpline.cpp` 1512-1548). -/
def segmentQuadraticIntegral (s : Spline K D) (W : Mat K) (seg n : Nat) : Out (Nat → Nat → K) :=
  if s.basis.length ≤ seg then .raise
  else if W.rows ≠ D then .raise
  else if W.cols ≠ D then .raise
  else do
    let Dm ← Dii s seg
    let V ← Vi s seg
    let M ← Mi s seg
    let V := derive s.order Dm n V
    if nearSymmetric D W then
      let WV : Nat → Nat → K := fun a b =>
        W.get (a / s.order) (b / s.order) * V (a % s.order) (b % s.order)
      return mmul (D * s.order) (mmul (D * s.order) (tr M) WV) M
    else .raise

/-- `segmentQuadraticIntegralDiag` (`BSpline.cpp` 1550-1580); the weights are given as a list. -/
def segmentQuadraticIntegralDiag (s : Spline K D) (w : List K) (seg n : Nat) : Out (Nat → Nat → K) :=
  if s.basis.length ≤ seg then .raise
  else if w.length ≠ D then .raise
  else do
    let Dm ← Dii s seg
    let V ← Vi s seg
    let M ← Mi s seg
    let V := derive s.order Dm n V
    let WV : Nat → Nat → K := fun a b =>
      if a / s.order = b / s.order then w.getD (a / s.order) 0 * V (a % s.order) (b % s.order) else 0
    return mmul (D * s.order) (mmul (D * s.order) (tr M) WV) M

/-- `Q.block(s*D, s*D, size, size) += B`. -/
def addBlock (Q : Nat → Nat → K) (p size : Nat) (B : Nat → Nat → K) : Nat → Nat → K := fun i j =>
  if p ≤ i ∧ i < p + size ∧ p ≤ j ∧ j < p + size then Q i j + B (i - p) (j - p) else Q i j

/-- The loop over the segments of `curveQuadraticIntegral` and `curveQuadraticIntegralDiag`, for the given
segment matrices (`BSpline.cpp` 1679-1682, 1699-1702).  The block is inside the matrix as long as there are as
many coefficients as the segments need (`ub` otherwise). -/
def denseLoop (order D cols : Nat) (segQ : Nat → Out (Nat → Nat → K)) :
    List Nat → (Nat → Nat → K) → Out (Nat → Nat → K)
  | [], Q => .ok Q
  | seg :: rest, Q => do
    let B ← segQ seg
    if cols < seg + order then .ub
    else denseLoop order D cols segQ rest (addBlock Q (seg * D) (order * D) B)

/-- `curveQuadraticIntegral` (`BSpline.cpp` 1669-1686). -/
def curveQuadraticIntegral (s : Spline K D) (W : Mat K) (n : Nat) : Out (Nat → Nat → K) :=
  if W.rows ≠ D then .raise
  else if W.cols ≠ D then .raise
  else denseLoop s.order D s.coeffs.length (fun seg => segmentQuadraticIntegral s W seg n)
    (List.range (numValidTimeSegments s.order s.knots.length)) fun _ _ => 0

/-- `curveQuadraticIntegralDiag` (`BSpline.cpp` 1690-1707). -/
def curveQuadraticIntegralDiag (s : Spline K D) (w : List K) (n : Nat) : Out (Nat → Nat → K) :=
  if w.length ≠ D then .raise
  else denseLoop s.order D s.coeffs.length (fun seg => segmentQuadraticIntegralDiag s w seg n)
    (List.range (numValidTimeSegments s.order s.knots.length)) fun _ _ => 0

/-- The row and column layout of the sparse matrix (`BSpline.cpp` 1600-1603, 1641-1644). -/
def layout (D blocks : Nat) : List Nat := (List.range blocks).map fun i => (i + 1) * D

/-- The pairs of the loops over `i` and `j` (`BSpline.cpp` 1612-1613). -/
def pairs (k : Nat) : List (Nat × Nat) := (List.range k).flatMap fun i => (List.range k).map fun j => (i, j)

/-- `Q.block(i*D, j*D, D, D)`. -/
def subBlock (D : Nat) (Q : Nat → Nat → K) (i j : Nat) : Mat K := ⟨D, D, fun x y => Q (i * D + x) (j * D + y)⟩

/-- The two inner loops for segment `seg` with segment matrix `B` (`BSpline.cpp` 1612-1618, 1653-1659). -/
def placeSegment (order D seg : Nat) (B : Nat → Nat → K) (A : SBM K) : SBM K :=
  (pairs order).foldl (fun A p => A.modBlk (seg + p.1) (seg + p.2) fun d => d.add (subBlock D B p.1 p.2)) A

/-- The loop over the segments of the sparse versions (`BSpline.cpp` 1608-1620, 1649-1661).  Block rows and
columns exist as long as there are as many coefficients as the segments need (`ub` otherwise). -/
def sparseLoop (order D blocks : Nat) (segQ : Nat → Out (Nat → Nat → K)) : List Nat → SBM K → Out (SBM K)
  | [], A => .ok A
  | seg :: rest, A => do
    let B ← segQ seg
    if blocks < seg + order then .ub
    else sparseLoop order D blocks segQ rest (placeSegment order D seg B A)

/-- `curveQuadraticIntegralSparse` (`BSpline.cpp` 1585-1622). -/
def curveQuadraticIntegralSparse (s : Spline K D) (W : Mat K) (n : Nat) : Out (SBM K) :=
  sparseLoop s.order D s.coeffs.length (fun seg => segmentQuadraticIntegral s W seg n)
    (List.range (numValidTimeSegments s.order s.knots.length))
    (SBM.new (layout D s.coeffs.length) (layout D s.coeffs.length))

/-- `curveQuadraticIntegralDiagSparse` (`BSpline.cpp` 1626-1664). -/
def curveQuadraticIntegralDiagSparse (s : Spline K D) (w : List K) (n : Nat) : Out (SBM K) :=
  sparseLoop s.order D s.coeffs.length (fun seg => segmentQuadraticIntegralDiag s w seg n)
    (List.range (numValidTimeSegments s.order s.knots.length))
    (SBM.new (layout D s.coeffs.length) (layout D s.coeffs.length))

/-- The coefficients column by column: the memory of `coefficients_`. -/
def stacked (c : List (Fin D → K)) : Nat → K := fun n =>
  if h : n % D < D then c.getD (n / D) 0 ⟨n % D, h⟩ else 0

/-- `BSplineMotionError::initialize` (`BSplineMotionError.hpp` 26-57): the order of the derivative is reduced
to one less than the order of the spline, and the matrix is computed once.  The copy of the matrix
(`cloneInto`) is the matrix. -/
def motionInit (s : Spline K D) (W : Mat K) (n : Nat) : Out (SBM K) :=
  curveQuadraticIntegralSparse s W (if s.order ≤ n ∧ 2 ≤ s.order then s.order - 1 else n)

/-- `evaluateErrorImplementation` (`BSplineMotionError.hpp` 62-77). -/
def motionError (Q : SBM K) (s : Spline K D) : K :=
  ∑ i ∈ Finset.range (D * s.coeffs.length), stacked s.coeffs i * Q.mulVec (stacked s.coeffs) i

/-- `rhs()` (`BSplineMotionError.hpp` 170-181). -/
def motionRhs (Q : SBM K) (s : Spline K D) : Nat → K := Q.mulVec fun n => -stacked s.coeffs n

/-- What the optimizer knows of a design variable: whether it is active and its block index. -/
structure DvInfo where
  active : Bool
  block : Nat

/-- The part of the loop of `buildHessianImplementation` for design variables `i` and `j`
(`BSplineMotionError.hpp` 136-149). -/
def hessianStep (Q : SBM K) (dvs : List DvInfo) (i : Nat) (a : DvInfo) (H : SBM K) (j : Nat) : SBM K :=
  match dvs[j]? with
  | none => H
  | some b =>
    if b.active then
      match Q.blk i j with
      | none => H
      | some B => H.modBlk b.block a.block fun d => d.add B
    else H

/-- `outRhs.segment(base, rows) -= v.segment(i*rows, rows)` (`BSplineMotionError.hpp` 152). -/
def subSegment (r : Nat → K) (b rows i : Nat) (v : Nat → K) : Nat → K := fun n =>
  if b ≤ n ∧ n < b + rows then r n - v (i * rows + (n - b)) else r n

/-- The loop over the design variables (`BSplineMotionError.hpp` 122-154); `minimalDimensions` is `D` for every
one of them. -/
def hessianLoop (D : Nat) (Q : SBM K) (dvs : List DvInfo) (bu : Nat → K) :
    List Nat → SBM K × (Nat → K) → SBM K × (Nat → K)
  | [], p => p
  | i :: rest, p =>
    match dvs[i]? with
    | none => hessianLoop D Q dvs bu rest p
    | some a =>
      if a.active then
        hessianLoop D Q dvs bu rest
          ((List.range (i + 1)).foldl (hessianStep Q dvs i a) p.1, subSegment p.2 (base p.1.cbi a.block) D i bu)
      else hessianLoop D Q dvs bu rest p

/-- `buildHessianImplementation` (`BSplineMotionError.hpp` 93-166). -/
def motionHessian (Q : SBM K) (s : Spline K D) (dvs : List DvInfo) (H : SBM K) (rhs : Nat → K) :
    SBM K × (Nat → K) :=
  hessianLoop D Q dvs (Q.mulVec (stacked s.coeffs)) (List.range dvs.length) (H, rhs)

/-! ## The error terms of `addMotionErrorTerms` -/

/-- `DesignVariableMappedVector`: the mapped memory and `_p_v`. -/
structure MappedVec (K : Type) (D : Nat) where
  v : Fin D → K
  pv : Fin D → K

/-- Constructor (`DesignVariableMappedVector.hpp` 5-15). -/
def MappedVec.new (v : Fin D → K) : MappedVec K D := ⟨v, v⟩

/-- `updateImplementation` (`DesignVariableMappedVector.hpp` 57-65). -/
def MappedVec.update (x : MappedVec K D) (dp : Fin D → K) : MappedVec K D := ⟨x.v + dp, x.v⟩

/-- `revertUpdateImplementation` (`DesignVariableMappedVector.hpp` 49-53). -/
def MappedVec.revert (x : MappedVec K D) : MappedVec K D := ⟨x.pv, x.pv⟩

/-- `setParametersImplementation` (`DesignVariableMappedVector.hpp` 111-116). -/
def MappedVec.set (x : MappedVec K D) (v : Fin D → K) : MappedVec K D := ⟨v, x.v⟩

/-- `updateMap` (`DesignVariableMappedVector.hpp` 37-46): the memory now mapped holds `v`. -/
def MappedVec.remap (_ : MappedVec K D) (v : Fin D → K) : MappedVec K D := ⟨v, v⟩

/-- `minimalDifferenceImplementation` (`DesignVariableMappedVector.hpp` 118-123): from `_p_v`, as in the
source. -/
def MappedVec.minimalDifference (x : MappedVec K D) (xHat : Fin D → K) : Fin D → K := x.pv - xHat

/-- The Jacobian of `minimalDifferenceAndJacobianImplementation` (`DesignVariableMappedVector.hpp` 125-130). -/
def MappedVec.differenceJacobian (_ : MappedVec K D) : Nat → Nat → K := fun i j => if i = j then 1 else 0

/-- `MarginalizationPriorErrorTerm`: the design variables (by index), their values at marginalization, `_d` and
`_R` with `rows` rows. -/
structure PriorTerm (K : Type) (D : Nat) where
  dvs : List Nat
  values : List (Fin D → K)
  rows : Nat
  d : Nat → K
  R : Nat → Nat → K

/-- `getDifferenceSinceMarginalization` (`MarginalizationPriorErrorTerm.cpp` 59-81), stacked. -/
def PriorTerm.difference (p : PriorTerm K D) (x : Nat → MappedVec K D) : Nat → K :=
  stacked ((p.dvs.zip p.values).map fun q => (x q.1).minimalDifference q.2)

/-- `evaluateErrorImplementation` (`MarginalizationPriorErrorTerm.cpp` 43-55): the error vector. -/
def PriorTerm.error (p : PriorTerm K D) (x : Nat → MappedVec K D) : Nat → K := fun i =>
  -(p.d i - ∑ j ∈ Finset.range (D * p.dvs.length), p.R i j * p.difference x j)

/-- The returned squared error; `invR` is the identity. -/
def PriorTerm.cost (p : PriorTerm K D) (x : Nat → MappedVec K D) : K :=
  ∑ i ∈ Finset.range p.rows, p.error x i * p.error x i

/-- The block of `evaluateJacobiansImplementation` (`MarginalizationPriorErrorTerm.cpp` 83-98) for the `k`-th
design variable. -/
def PriorTerm.jacobian (p : PriorTerm K D) (x : Nat → MappedVec K D) (k : Nat) : Nat → Nat → K := fun i j =>
  ∑ e ∈ Finset.range D, p.R i (k * D + e) * (x (p.dvs.getD k 0)).differenceJacobian e j

/-- `segmentCoefficientVector` (`BSpline.cpp` 425-433), stacked. -/
def segmentCoefficients (s : Spline K D) (seg : Nat) : Out (List (Fin D → K)) :=
  if numValidTimeSegments s.order s.knots.length ≤ seg then .raise
  else if s.coeffs.length < seg + s.order then .ub
  else .ok ((s.coeffs.drop seg).take s.order)

/-- `segmentIntegral` (`BSpline.cpp` 1502-1507): `(U * diag(sqrt(σ)))ᵀ`, for the matrix `U` of the left singular
vectors and the singular values `σ` that `jacobiSvd` returns for the segment matrix. -/
noncomputable def segmentIntegral (U : Nat → Nat → ℝ) (σ : Nat → ℝ) : Nat → Nat → ℝ := fun k j => U j k * Real.sqrt (σ k)

/-- One round of `addMotionErrorTerms` (`BSplineMotionErrorFactory.hpp` 10-24) for segment `seg`.  The factor
`R` that `segmentIntegral` (`BSpline.cpp` 1502-1507, see `segmentIntegral`) returns is given; the
indices of `segmentVvCoefficientVectorIndices` are `seg, ..., seg + order - 1`. -/
def motionTerm (s : Spline K D) (R : Nat → Nat → K) (seg : Nat) : Out (PriorTerm K D) := do
  let c ← segmentCoefficients s seg
  return ⟨List.range' seg s.order, c, D * s.order,
    fun i => ∑ j ∈ Finset.range (D * s.order), R i j * stacked c j, R⟩

/-- `addMotionErrorTerms` (`BSplineMotionErrorFactory.hpp` 5-26), with the factors given. -/
def addMotionErrorTerms (s : Spline K D) (R : Nat → Nat → Nat → K) : List Nat → Out (List (PriorTerm K D))
  | [] => .ok []
  | seg :: rest => do
    let t ← motionTerm s (R seg) seg
    let ts ← addMotionErrorTerms s R rest
    return t :: ts

end Kalibr.Motion
