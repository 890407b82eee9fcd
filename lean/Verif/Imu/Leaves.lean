import Verif.Pose.NodeModel
import Verif.Expr.Model

/-!
# Splines in expressions

The nodes of `aslam_splines/src/BSplineExpressions.cpp` as leaves of the trees of `Verif/Expr`.  Every coefficient of
a spline is the memory of one design variable: coefficient `i` of a spline with dimension `D` is the vector design
variable number `b + i`, where `b` is a number of the spline.  Two splines of the same dimension whose numbers are
further apart than their lengths share no design variable.

Line numbers without a file are those of BSplineExpressions.cpp.
-/

namespace Kalibr.Imu

open Kalibr.Kin Kalibr.BSpline Kalibr.Exp Kalibr.Pose Matrix

variable {D : ℕ}

/-- The spline as it reads its coefficients, which are the memory of its design variables: the constructors
`BSplineDesignVariable` (implementation/BSplineDesignVariable.hpp:10-21) and `BSplinePoseDesignVariable`
(BSplinePoseDesignVariable.cpp:10-22) map every coefficient by a `DesignVariableMappedVector`. -/
def mapped (s : Spline ℝ D) (b : ℕ) (a : Vecs) : Spline ℝ D :=
  { s with coeffs := (List.range s.coeffs.length).map fun i => a (b + i) D }

/-- The same for a pose spline. -/
def mappedPose (P : PoseSpline) (b : ℕ) (a : Vecs) : PoseSpline := { P with spline := mapped P.spline b a }

/-- The value of a call that returns; `d` stands for the other cases, which the theorems exclude. -/
def orElse {α : Type} (x : Out α) (d : α) : α :=
  match x with
  | .ok v => v
  | _ => d

/-- A node on a pose spline at time `t` with the given value and the given Jacobian for the identity as chain rule
matrix; its design variables are found when it is made (BSplinePoseDesignVariable.cpp:60-74 and the following
methods). -/
noncomputable def poseLeaf {k : Kind} (P : PoseSpline) (b : ℕ) (t : ℝ) (d : Val k) (value : PoseSpline → Out (Val k))
    (node : PoseSpline → Out (List (DvBlock (tdim k)))) : Leaf k where
  value a := orElse (value (mappedPose P b a)) d
  blocks a := (orElse (node (mappedPose P b a)) []).map fun x => ⟨.vec (b + x.1) 6, x.2⟩
  vars := (orElse (activeVariables P t) []).map fun i => .vec (b + i) 6

variable (P : PoseSpline) (b : ℕ) (t : ℝ)

/-- `BSplinePoseDesignVariable::transformation` and `BSplineTransformationExpressionNode` (10-60). -/
noncomputable def transformationLeaf : Leaf .tr :=
  poseLeaf P b t 1 (Pose.transformation · t) (transformationNode · t 1)

/-- `orientation` and `BSplineRotationExpressionNode` (66-120). -/
noncomputable def orientationLeaf : Leaf .rot :=
  poseLeaf P b t 1 (Pose.orientation · t) (orientationNode · t 1)

/-- `position` and `BSplinePositionExpressionNode` (126-178). -/
noncomputable def positionLeaf : Leaf .euc := poseLeaf P b t 0 (Pose.position · t) (positionNode · t 0 1)

/-- `linearVelocity` and `BSplineVelocityExpressionNode` (185-237). -/
noncomputable def velocityLeaf : Leaf .euc := poseLeaf P b t 0 (Pose.linearVelocity · t) (positionNode · t 1 1)

/-- `linearAcceleration` and `BSplineAccelerationExpressionNode` (245-297). -/
noncomputable def accelerationLeaf : Leaf .euc :=
  poseLeaf P b t 0 (Pose.linearAcceleration · t) (positionNode · t 2 1)

/-- `angularVelocityBodyFrame` and `BSplineAngularVelocityBodyFrameExpressionNode` (352-404). -/
noncomputable def angularVelocityLeaf : Leaf .euc :=
  poseLeaf P b t 0 (Pose.angularVelocityBodyFrame · t) (bodyRateNode · t 1 1)

/-- `angularAccelerationBodyFrame` and `BSplineAngularAccelerationBodyFrameExpressionNode` (608-665). -/
noncomputable def angularAccelerationLeaf : Leaf .euc :=
  poseLeaf P b t 0 (Pose.angularAccelerationBodyFrame · t) (bodyRateNode · t 2 1)

/-! ## Splines of points -/

/-- `BSpline::evalDAndJacobian` (BSpline.cpp:351-387) for any dimension: value, the blocks of the Jacobian, and the
first of the coefficients. -/
noncomputable def evalAndBlocks (s : Spline ℝ D) (t : ℝ) (n : ℕ) :
    Out ((Fin D → ℝ) × (ℕ → Matrix (Fin D) (Fin D) ℝ) × ℕ) := do
  let l ← locate s t
  let w ← localBi s t n
  match combine s.order s.coeffs l.2.2 w with
  | none => .ub
  | some v => return (v, fun c => w c • 1, l.2.2)

/-- `localVvCoefficientVectorIndices` (BSpline.cpp:451-456). -/
noncomputable def activeCoefficients (s : Spline ℝ D) (t : ℝ) : Out (List ℕ) := do
  let ui ← computeTIndex s t
  if ui.2 + 1 < s.order then .ub else return (List.range s.order).map (ui.2 + 1 - s.order + ·)

/-- `EuclideanBSplineDesignVariable::toEuclideanExpression` (EuclideanBSplineDesignVariable.cpp:20-31) and
`BSplineEuclideanExpressionNode` (561-605). -/
noncomputable def pointLeaf (s : Spline ℝ 3) (b : ℕ) (t : ℝ) (n : ℕ) : Leaf .euc where
  value a := orElse (evalD (mapped s b a) t n) 0
  blocks a := match evalAndBlocks (mapped s b a) t n with
    | .ok r => (orElse (activeCoefficients s t) []).zipIdx.map fun x => ⟨.vec (b + x.1) 3, r.2.1 x.2⟩
    | _ => []
  vars := (orElse (activeCoefficients s t) []).map fun i => .vec (b + i) 3

end Kalibr.Imu
