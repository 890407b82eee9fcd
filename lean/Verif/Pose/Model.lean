import Verif.BSpline.Calculus
import Verif.Kinematics.RVJacobian
import Verif.Expr.Model

/-!
# Pose splines

`aslam_bsplines/src/BSplinePose.cpp`: a B-spline with six dimensions, three for the position and three for the
parameters of the orientation, on top of the model of `BSpline` (`Verif/BSpline`) and of the rotational kinematics
(`Verif/Kinematics`).  All the line numbers without a file are those of `BSplinePose.cpp`.

A Jacobian with respect to the local coefficients has six columns for each of the `order` coefficients that take
part; it is modelled as the function that gives the block of six columns of the local coefficient `c`.
-/

namespace Kalibr.Pose

open Kalibr.Kin Kalibr.BSpline Matrix

/-- A value of a pose spline. -/
abbrev V6 := Fin 6 → ℝ

/-- `v.head<3>()`. -/
def head (v : V6) : V3 := ![v 0, v 1, v 2]

/-- `v.tail<3>()`. -/
def tail (v : V6) : V3 := ![v 3, v 4, v 5]

/-- `RotationalKinematics`: the methods of the interface that the pose spline calls. -/
structure RotKin where
  /-- `parametersToRotationMatrix` -/
  toR : V3 → M3
  /-- `rotationMatrixToParameters` -/
  ofR : M3 → V3
  /-- `parametersToSMatrix`, also the matrix `parametersToRotationMatrix` returns -/
  S : V3 → M3
  /-- the value of `angularVelocityAndJacobian` -/
  omega : V3 → V3 → V3
  /-- its Jacobian -/
  jac : V3 → V3 → Jac36

/-- `EulerAnglesYawPitchRoll`. -/
noncomputable def ypr : RotKin := ⟨yprToR, yprOfR, yprS, yprOmega, yprJac⟩

/-- `EulerAnglesZYX`. -/
noncomputable def zyx : RotKin := ⟨zyxToR, zyxOfR, zyxS, zyxOmega, zyxJac⟩

/-- `EulerAnglesZXY`. -/
noncomputable def zxy : RotKin := ⟨zxyToR, zxyOfR, zxyS, zxyOmega, zxyJac⟩

/-- `EulerRodriguez`. -/
noncomputable def rodrigues : RotKin := ⟨erToR, erOfR, erS, erOmega, erJac⟩

/-- `RotationVector`. -/
noncomputable def rotationVector : RotKin := ⟨rvToR, rvOfR, rvS, rvOmega, rvJac⟩

/-- Members of `BSplinePose`. -/
structure PoseSpline where
  spline : Spline ℝ 6
  rot : RotKin

/-- The blocks of a Jacobian with respect to the local coefficients. -/
abbrev Blocks (m : ℕ) := ℕ → Matrix (Fin m) (Fin 6) ℝ

/-- `BSpline::evalDAndJacobian` (BSpline.cpp:351-387): value, Jacobian, and the first of the `order` coefficients it
is for, from which `coefficientIndices` is counted. -/
noncomputable def evalDAndJacobian (s : Spline ℝ 6) (t : ℝ) (d : ℕ) : Out (V6 × Blocks 6 × ℕ) := do
  let l ← locate s t
  let w ← localBi s t d
  match combine s.order s.coeffs l.2.2 w with
  | none => .ub
  | some v => return (v, fun c => w c • 1, l.2.2)

/-- `BSpline::localCoefficientVectorIndices` (BSpline.cpp:436-442), the first of them divided by the dimension. -/
noncomputable def firstIndex (s : Spline ℝ 6) (t : ℝ) : Out ℕ := do
  let ui ← computeTIndex s t
  if ui.2 + 1 < s.order then .ub else return ui.2 + 1 - s.order

variable (P : PoseSpline) (t : ℝ)

/-- `curveValueToTransformation` (384-392). -/
def curveValueToTransformation (c : V6) : M4 := rt2Transform (P.rot.toR (tail c)) (head c)

/-- The Jacobian of `curveValueToTransformationAndJacobian` (394-412). -/
def curveValueJacobian (p : V6) : Matrix (Fin 6) (Fin 6) ℝ :=
  Exp.blocks6 1 (-crossMx (head p) * P.rot.S (tail p)) 0 (P.rot.S (tail p))

/-- `transformationToCurveValue` (414-421). -/
def transformationToCurveValue (T : M4) : V6 :=
  let r := transform2rho T
  let p := P.rot.ofR (transform2C T)
  ![r 0, r 1, r 2, p 0, p 1, p 2]

/-- `JO`: three zero columns, then `S` (53-54). -/
def orientationBlock (S : M3) : Matrix (Fin 3) (Fin 6) ℝ :=
  !![0, 0, 0, S 0 0, S 0 1, S 0 2; 0, 0, 0, S 1 0, S 1 1, S 1 2; 0, 0, 0, S 2 0, S 2 1, S 2 2]

/-- `transformation` (21-24). -/
noncomputable def transformation : Out M4 := do
  let p ← evalD P.spline t 0
  return curveValueToTransformation P p

/-- `transformationAndJacobian` (26-41). -/
noncomputable def transformationAndJacobian : Out (M4 × Blocks 6 × ℕ) := do
  let (p, JS, i) ← evalDAndJacobian P.spline t 0
  return (curveValueToTransformation P p, fun c => curveValueJacobian P p * JS c, i)

/-- `orientationAndJacobian` (43-62). -/
noncomputable def orientationAndJacobian : Out (M3 × Blocks 3 × ℕ) := do
  let (p, JS, i) ← evalDAndJacobian P.spline t 0
  return (P.rot.toR (tail p), fun c => orientationBlock (P.rot.S (tail p)) * JS c, i)

/-- `inverseOrientationAndJacobian` (64-83). -/
noncomputable def inverseOrientationAndJacobian : Out (M3 × Blocks 3 × ℕ) := do
  let (p, JS, i) ← evalDAndJacobian P.spline t 0
  let C := (P.rot.toR (tail p))ᵀ
  return (C, fun c => -C * orientationBlock (P.rot.S (tail p)) * JS c, i)

/-- Inverting a transformation in place (97-98, 117-118): the rotation is transposed first, and the transposed one is
used for the translation. -/
def invertInPlace (T : M4) : M4 :=
  let C := (transform2C T)ᵀ
  rt2Transform C ((-C).mulVec (transform2rho T))

/-- `inverseTransformationAndJacobian` (86-112). -/
noncomputable def inverseTransformationAndJacobian : Out (M4 × Blocks 6 × ℕ) := do
  let (p, JS, _) ← evalDAndJacobian P.spline t 0
  let T := invertInPlace (curveValueToTransformation P p)
  let i ← firstIndex P.spline t
  return (T, fun c => -Exp.boxTimes T * curveValueJacobian P p * JS c, i)

/-- `inverseTransformation` (114-120). -/
noncomputable def inverseTransformation : Out M4 := do
  let p ← evalD P.spline t 0
  return invertInPlace (curveValueToTransformation P p)

/-- `transformVectorAndJacobian` (124-136). -/
noncomputable def transformVectorAndJacobian (v : V4) : Out (V4 × Blocks 4 × ℕ) := do
  let (T, JT, i) ← transformationAndJacobian P t
  let vn := T.mulVec v
  return (vn, fun c => Exp.boxMinus vn * JT c, i)

/-- `position` (139-142). -/
noncomputable def position : Out V3 := do
  let p ← evalD P.spline t 0
  return head p

/-- `orientation` (146-149). -/
noncomputable def orientation : Out M3 := do
  let p ← evalD P.spline t 0
  return P.rot.toR (tail p)

/-- `inverseOrientation` (151-154). -/
noncomputable def inverseOrientation : Out M3 := do
  let p ← evalD P.spline t 0
  return (P.rot.toR (tail p))ᵀ

/-- `linearVelocity` (158-161). -/
noncomputable def linearVelocity : Out V3 := do
  let v ← evalD P.spline t 1
  return head v

/-- `linearVelocityBodyFrame` (163-168). -/
noncomputable def linearVelocityBodyFrame : Out V3 := do
  let r ← evalD P.spline t 0
  let v ← evalD P.spline t 1
  return (P.rot.toR (tail r))ᵀ.mulVec (head v)

/-- `linearAcceleration` (170-173). -/
noncomputable def linearAcceleration : Out V3 := do
  let a ← evalD P.spline t 2
  return head a

/-- `linearAccelerationBodyFrame` (175-180). -/
noncomputable def linearAccelerationBodyFrame : Out V3 := do
  let r ← evalD P.spline t 0
  let a ← evalD P.spline t 2
  return (P.rot.toR (tail r))ᵀ.mulVec (head a)

/-- The first three rows of a Jacobian (`conservativeResize`, 188). -/
def headRows (J : Matrix (Fin 6) (Fin 6) ℝ) : Matrix (Fin 3) (Fin 6) ℝ := Matrix.of ![J 0, J 1, J 2]

/-- The last three rows of a Jacobian (238). -/
def tailRows (J : Matrix (Fin 6) (Fin 6) ℝ) : Matrix (Fin 3) (Fin 6) ℝ := Matrix.of ![J 3, J 4, J 5]

/-- `linearAccelerationAndJacobian` (182-191). -/
noncomputable def linearAccelerationAndJacobian : Out (V3 × Blocks 3 × ℕ) := do
  let (a, J, i) ← evalDAndJacobian P.spline t 2
  return (head a, fun c => headRows (J c), i)

/-- `angularVelocity` (195-204). -/
noncomputable def angularVelocity : Out V3 := do
  let r ← evalD P.spline t 0
  let v ← evalD P.spline t 1
  return (-P.rot.S (tail r)).mulVec (tail v)

/-- `angularVelocityBodyFrame` (207-219). -/
noncomputable def angularVelocityBodyFrame : Out V3 := do
  let r ← evalD P.spline t 0
  let v ← evalD P.spline t 1
  return (-(P.rot.toR (tail r))ᵀ * P.rot.S (tail r)).mulVec (tail v)

/-- `angularAccelerationBodyFrame` (288-300). -/
noncomputable def angularAccelerationBodyFrame : Out V3 := do
  let r ← evalD P.spline t 0
  let v ← evalD P.spline t 2
  return (-(P.rot.toR (tail r))ᵀ * P.rot.S (tail r)).mulVec (tail v)

/-- `angularVelocityBodyFrameAndJacobian` (222-253) for `n = 1` and `angularAccelerationBodyFrameAndJacobian`
(303-331) for `n = 2`; the two bodies differ in nothing else. -/
noncomputable def bodyRateAndJacobian (n : ℕ) : Out (V3 × Blocks 3 × ℕ) := do
  let (p6, Jp, _) ← evalDAndJacobian P.spline t 0
  let (v6, Jv, i) ← evalDAndJacobian P.spline t n
  let (C, Jr, _) ← inverseOrientationAndJacobian P t
  let p := tail p6
  let v := tail v6
  let omega := (-C).mulVec (P.rot.omega p v)
  let Jo := P.rot.jac p v
  return (omega, fun c => (-C * Jo.dp) * tailRows (Jp c) + (-C * Jo.dr) * tailRows (Jv c) + crossMx omega * Jr c, i)

/-- `angularVelocityAndJacobian` (257-285) for `n = 1` and `angularAccelerationAndJacobian` (335-359) for `n = 2`. -/
noncomputable def worldRateAndJacobian (n : ℕ) : Out (V3 × Blocks 3 × ℕ) := do
  let (p6, Jp, _) ← evalDAndJacobian P.spline t 0
  let (v6, Jv, i) ← evalDAndJacobian P.spline t n
  let p := tail p6
  let v := tail v6
  let Jo := P.rot.jac p v
  return (P.rot.omega p v, fun c => Jo.dp * tailRows (Jp c) + Jo.dr * tailRows (Jv c), i)

end Kalibr.Pose
