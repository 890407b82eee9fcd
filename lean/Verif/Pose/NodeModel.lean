import Verif.Pose.Spec

/-!
# Expressions on a pose spline

`aslam_splines/src/BSplinePoseDesignVariable.cpp` makes every coefficient of the spline a design variable with six
dimensions, whose update adds to the coefficient (`DesignVariableMappedVector::updateImplementation`,
implementation/DesignVariableMappedVector.hpp:58-66).  `aslam_splines/src/BSplineExpressions.cpp` has the nodes that
put values of the spline into expressions.  Line numbers without a file are those of BSplineExpressions.cpp.
-/

namespace Kalibr.Pose

open Kalibr.Kin Kalibr.BSpline Matrix Finset Kalibr.Exp

/-! ## Model -/

/-- A block handed to the Jacobian container: the index of the design variable and the matrix. -/
abbrev DvBlock (m : ℕ) := ℕ × Matrix (Fin m) (Fin 6) ℝ

variable (P : PoseSpline) (t : ℝ)

/-- `localVvCoefficientVectorIndices` (BSpline.cpp:451-456). -/
noncomputable def activeVariables : Out (List ℕ) := do
  let i ← firstIndex P.spline t
  return (List.range P.spline.order).map (i + ·)

/-- The loop of every node at a fixed time: the block of six columns number `i` of the Jacobian goes, multiplied with
the chain rule matrix, to the design variable number `i` of the node (23-46, 78-107, 138-165, 197-224, 257-284,
312-337, 365-392, 627-653). -/
noncomputable def addBlocks {m k : ℕ} (A : Matrix (Fin k) (Fin m) ℝ) (dvs : List ℕ) (J : Blocks m) : List (DvBlock k) :=
  dvs.zipIdx.map fun x => (x.1, A * J x.2)

/-- `BSplineTransformationExpressionNode::evaluateJacobiansImplementation` (23-46), made by
`BSplinePoseDesignVariable::transformation` (BSplinePoseDesignVariable.cpp:60-74). -/
noncomputable def transformationNode {k : ℕ} (A : Matrix (Fin k) (Fin 6) ℝ) : Out (List (DvBlock k)) := do
  let dvs ← activeVariables P t
  let (_, J, _) ← transformationAndJacobian P t
  return addBlocks A dvs J

/-- `BSplineRotationExpressionNode::evaluateJacobiansImplementation` (78-107). -/
noncomputable def orientationNode {k : ℕ} (A : Matrix (Fin k) (Fin 3) ℝ) : Out (List (DvBlock k)) := do
  let dvs ← activeVariables P t
  let (_, J, _) ← orientationAndJacobian P t
  return addBlocks A dvs J

/-- The nodes of the position (`n = 0`, 138-165), the velocity (`n = 1`, 197-224) and the acceleration (`n = 2`,
257-284): `J.block<3,6>(0, 6 * i)`. -/
noncomputable def positionNode {k : ℕ} (n : ℕ) (A : Matrix (Fin k) (Fin 3) ℝ) : Out (List (DvBlock k)) := do
  let dvs ← activeVariables P t
  let (_, J, _) ← evalDAndJacobian P.spline t n
  return addBlocks A dvs fun c => headRows (J c)

/-- `BSplineAccelerationBodyFrameExpressionNode::evaluateJacobiansImplementation` (312-337): the same Jacobian as for
the acceleration in the world frame. -/
noncomputable def accelerationBodyFrameNode {k : ℕ} (A : Matrix (Fin k) (Fin 3) ℝ) : Out (List (DvBlock k)) := do
  let dvs ← activeVariables P t
  let (_, J, _) ← evalDAndJacobian P.spline t 2
  return addBlocks A dvs fun c => headRows (J c)

/-- The nodes of the angular velocity (`n = 1`, 365-392) and the angular acceleration (`n = 2`, 627-653) in the body
frame. -/
noncomputable def bodyRateNode {k : ℕ} (n : ℕ) (A : Matrix (Fin k) (Fin 3) ℝ) : Out (List (DvBlock k)) := do
  let dvs ← activeVariables P t
  let (_, J, _) ← bodyRateAndJacobian P t n
  return addBlocks A dvs J

/-- `segmentIndex` (BSpline.cpp:1440-1444). -/
noncomputable def segmentIndex : Out ℕ := firstIndex P.spline t

/-- Members of `TransformationTimeOffsetExpressionNode`: the times for which the node may be evaluated and the range
of its design variables `_localCoefficientIndices`. -/
structure TimeNode where
  tmin : ℝ
  tmax : ℝ
  l : ℕ
  r : ℕ

/-- The last segment of the buffer (412-415). -/
noncomputable def bufferRight (bufferTmax : ℝ) : Out ℕ := do
  let hi ← tMax P.spline
  if hi < bufferTmax + t then return numValidTimeSegments P.spline.order P.spline.knots.length - 1
  else segmentIndex P (t + bufferTmax)

/-- The first segment of the buffer (417-420). -/
noncomputable def bufferLeft (bufferTmin : ℝ) : Out ℕ := do
  let lo ← tMin P.spline
  if t - bufferTmin < lo then return 0 else segmentIndex P (t - bufferTmin)

/-- The constructor `TransformationTimeOffsetExpressionNode` (406-438) for the initial time `t`. -/
noncomputable def makeTimeNode (bufferTmin bufferTmax : ℝ) : Out TimeNode := do
  let right ← bufferRight P t bufferTmax
  let left ← bufferLeft P t bufferTmin
  let ir ← timeInterval P.spline right
  let il ← timeInterval P.spline left
  let l ← firstIndex P.spline ((il.1 + il.2) / 2)
  let r ← firstIndex P.spline ((ir.1 + ir.2) / 2)
  return { tmin := il.1, tmax := ir.2, l := l, r := r + P.spline.order - 1 }

/-- `toTransformationMatrixImplementation` (445-449) when the time expression has the value `t`. -/
noncomputable def timeNodeValue (N : TimeNode) : Out M4 :=
  if N.tmin ≤ t ∧ t < N.tmax then transformation P t else .raise

/-- The loop with chain rule (524-535); `j` counts the blocks used so far. -/
def chainLoop {k : ℕ} (A : Matrix (Fin k) (Fin 6) ℝ) (J : Blocks 6) (minIdx maxIdx : ℕ) :
    List ℕ → ℕ → List (DvBlock k)
  | [], _ => []
  | v :: vs, j =>
    if minIdx ≤ v ∧ v ≤ maxIdx then (v, A * J j) :: chainLoop A J minIdx maxIdx vs (j + 1)
    else (v, A * (0 : Matrix (Fin 6) (Fin 6) ℝ)) :: chainLoop A J minIdx maxIdx vs j

/-- `evaluateJacobiansImplementation` with chain rule (495-544) when the time expression has the value `t`: the
blocks, and the column handed to the time expression.  A block that is not there is read when the active variables
are not within those of the node. -/
noncomputable def timeNodeChain {k : ℕ} (N : TimeNode) (A : Matrix (Fin k) (Fin 6) ℝ) :
    Out (List (DvBlock k) × (Fin k → ℝ)) :=
  if N.tmin ≤ t ∧ t < N.tmax then do
    let minIdx ← firstIndex P.spline t
    let (p, JS, _) ← evalDAndJacobian P.spline t 0
    let JT := curveValueJacobian P p
    let v ← evalD P.spline t 1
    return (chainLoop A (fun c => JT * JS c) minIdx (minIdx + P.spline.order - 1)
      (List.range' N.l (N.r + 1 - N.l)) 0, (A * JT).mulVec v)
  else .raise

/-- The loop without chain rule (478-486): the block is the one at `6 * (i - minIdx)`, where `i` counts the design
variables of the node. -/
def plainLoop (k : ℕ) (J : Blocks 6) (minIdx maxIdx : ℕ) : List ℕ → ℕ → Out (List (DvBlock 6))
  | [], _ => .ok []
  | v :: vs, i =>
    if minIdx ≤ v ∧ v ≤ maxIdx then
      if i < minIdx ∨ k ≤ i - minIdx then .ub
      else do
        let rest ← plainLoop k J minIdx maxIdx vs (i + 1)
        return (v, J (i - minIdx)) :: rest
    else do
      let rest ← plainLoop k J minIdx maxIdx vs (i + 1)
      return (v, 0) :: rest

/-- `evaluateJacobiansImplementation` without chain rule (451-493). -/
noncomputable def timeNodePlain (N : TimeNode) : Out (List (DvBlock 6) × V6) :=
  if N.tmin ≤ t ∧ t < N.tmax then do
    let minIdx ← firstIndex P.spline t
    let (p, JS, _) ← evalDAndJacobian P.spline t 0
    let JT := curveValueJacobian P p
    let bs ← plainLoop P.spline.order (fun c => JT * JS c) minIdx (minIdx + P.spline.order - 1)
      (List.range' N.l (N.r + 1 - N.l)) 0
    let v ← evalD P.spline t 1
    return (bs, JT.mulVec v)
  else .raise

/-! ## Specification -/

/-- What the blocks handed to the container say about increments of the design variables. -/
noncomputable def announced {k : ℕ} (bs : List (DvBlock k)) (δ : ℕ → V6) : Fin k → ℝ :=
  (bs.map fun b => b.2.mulVec (δ b.1)).sum

/-- The blocks are right: after every update of the design variables the value of the expression moves with a velocity
`ξ`, and the blocks announce the chain rule matrix times `ξ`. -/
def RightBlocks {α : Type} {m k : ℕ} (value : PoseSpline → Out α) (moves : (ℝ → α) → (Fin m → ℝ) → Prop)
    (P : PoseSpline) (A : Matrix (Fin k) (Fin m) ℝ) (bs : List (DvBlock k)) : Prop :=
  ∀ δ : ℕ → V6, ∃ (f : ℝ → α) (ξ : Fin m → ℝ), (∀ ε, value (P.perturb δ ε) = .ok (f ε)) ∧ moves f ξ ∧
    announced bs δ = A.mulVec ξ

end Kalibr.Pose
