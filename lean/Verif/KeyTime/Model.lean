import Verif.Time.Model

/-! Model for C108: the times at which keypoints were seen.

`cv/` stands for `aslam_cv/`.  As in the model of `aslam_time`, `double` is modelled by exact rationals. -/

namespace Kalibr.KeyTime

open Kalibr.AslamTime

/-- The shutter of a camera: `GlobalShutter`, or `RollingShutter` with its line delay in seconds. -/
inductive Shutter
  | global
  | rolling (lineDelay : ℚ)

/-- `temporalOffset(k)` of a shutter, where `row` is `k[1]`: cv/aslam_cameras/include/aslam_cameras/cameras/
RollingShutter.hpp:38-41 and GlobalShutter.hpp:32-35 (also `PinholeCameraGeometry`, cv/aslam_cameras/src/
PinholeCameraGeometry.cpp:67-70, and `PinholeRSCameraGeometry`, src/PinholeRSCameraGeometry.cpp:77-83). -/
def Shutter.temporalOffset (s : Shutter) (row : ℚ) : Out Duration :=
  match s with
  | .global => Duration.fromSec 0
  | .rolling d => Duration.fromSec (d * row)

/-- `Time::toSec` (cv/aslam_time/include/aslam_time/Time.hpp:151-153). -/
def toSec (t : Time) : ℚ := t.sec + 1 / 10 ^ 9 * t.nsec

/-- `Frame::keypointTime` (cv/aslam_cameras/include/aslam_cameras/implementation/Frame.hpp:89-94). -/
def frameTime (s : Shutter) (stamp : Time) (row : ℚ) : Out Time := do
  let d ← s.temporalOffset row
  stamp.add d

/-- `ScalarExpressionNodeKeypointTime::toScalarImplementation` (cv/aslam_cv_backend/include/aslam_cv_backend/
implementation/ScalarExpressionNodeKeypointTime.hpp:24-26). -/
def nodeValue (s : Shutter) (stamp : Time) (row : ℚ) : Out ℚ := do
  let d ← s.temporalOffset row
  let t ← stamp.add d
  pure (toSec t)

/-- The expression that `keypointTime` gives: a node that reads the shutter when it is evaluated, or a number. -/
inductive TimeExpr
  | node (stamp : Time) (row : ℚ)
  | number (t : ℚ)

/-- `CameraDesignVariable::keypointTime` (cv/aslam_cv_backend/include/aslam_cv_backend/implementation/
CameraDesignVariable.hpp:83-102) and `CameraGeometryDesignVariableContainer::keypointTime`
(cv/aslam_cv_backend/src/CameraGeometryDesignVariableContainer.cpp:58-68). -/
def keypointTime (active : Bool) (s : Shutter) (stamp : Time) (row : ℚ) : Out TimeExpr :=
  if active then .ok (.node stamp row)
  else do
    let d ← s.temporalOffset row
    let t ← stamp.add d
    pure (.number (toSec t))

/-- `CameraDesignVariable::temporalOffset` (CameraDesignVariable.hpp:104-108) and that of the container
(CameraGeometryDesignVariableContainer.cpp:70-73): the time with the stamp `Time()`, which is zero. -/
def temporalOffset (active : Bool) (s : Shutter) (row : ℚ) : Out TimeExpr := keypointTime active s ⟨0, 0⟩ row

/-- The value of such an expression when the shutter is `s`. -/
def TimeExpr.value (e : TimeExpr) (s : Shutter) : Out ℚ :=
  match e with
  | .node stamp row => nodeValue s stamp row
  | .number t => .ok t

/-- `minimalDimensions` of a shutter (cv/aslam_cameras/src/RollingShutter.cpp:32-34, GlobalShutter.cpp:22-24). -/
def Shutter.dims : Shutter → ℕ
  | .global => 0
  | .rolling _ => 1

/-- `update` of a shutter by a vector of one number (src/RollingShutter.cpp:28-30, GlobalShutter.cpp:18-20). -/
def Shutter.update (v : ℚ) : Shutter → Shutter
  | .global => .global
  | .rolling d => .rolling (d + v)

/-- `ScalarExpressionNodeKeypointTime::evaluateJacobiansImplementation` (…KeypointTime.hpp:28-37): a Jacobian of one
column is added for the design variable of the shutter, and `JacobianContainer::add` refuses it if the design variable
has another number of dimensions (aslam_optimizer/aslam_backend/include/aslam_backend/backend/JacobianContainer.hpp:121-122).
A number has no Jacobians: the empty list. -/
def TimeExpr.jacobian (e : TimeExpr) (s : Shutter) : Out (List ℚ) :=
  match e with
  | .node _ row => if 1 ≠ s.dims then .raise else .ok [row]
  | .number _ => .ok []

end Kalibr.KeyTime
