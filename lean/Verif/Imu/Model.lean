import Verif.Imu.Leaves

/-!
# Error terms of inertial measurement units

`aslam_offline_calibration/kalibr/src/{EuclideanError,AccelerometerError,GyroscopeError}.cpp`, and the expressions
`aslam_offline_calibration/kalibr/python/kalibr_imu_camera_calibration/IccSensors.py` (below: the Python module) builds
for the measurements of the three models of a unit.

Every operator of the expression API makes a new node; the addresses of the caching nodes (see `Verif/Expr/Model.lean`)
are `n`, `n + 1`, ....

Not modelled: the choice of the M-estimators, the weights of the measurements, the progress bars.
-/

namespace Kalibr.Imu

open Kalibr.Kin Kalibr.BSpline Kalibr.Exp Kalibr.Pose Matrix

/-! ## EuclideanError -/

/-- `EuclideanError::evaluateErrorImplementation` (EuclideanError.cpp:17-20) and the same method of
`GyroscopeNoBiasError` (GyroscopeError.cpp:38-43): the error vector. -/
noncomputable def euclideanError (x : State) (predicted : Expr .euc) (measurement : V3) : W V3 := do
  let p ← eval x predicted
  pure (fun j => p j - measurement j)

/-- `EuclideanError::evaluateJacobiansImplementation` (EuclideanError.cpp:23-26) and the same method of
`GyroscopeNoBiasError` (GyroscopeError.cpp:45-48). -/
noncomputable def euclideanErrorJac (x : State) (predicted : Expr .euc) : W (List (Block 3)) :=
  jac0 x predicted (by simp)

/-! ## Predicted measurements of the classes in C++ -/

/-- `AccelerometerError` (AccelerometerError.cpp:14). -/
def accelerometerError (n : ℕ) (C_b_w : Expr .rot) (a_w bias g_w : Expr .euc) : Expr .euc :=
  .add (.rotEuc n C_b_w (.sub a_w g_w)) bias

/-- `angularAcceleration_b.cross(r) + angularVelocity_b.cross(angularVelocity_b.cross(r))`
(AccelerometerError.cpp:44-46). -/
def lever (α ω r : Expr .euc) : Expr .euc := .add (.cross α r) (.cross ω (.cross ω r))

/-- `AccelerometerErrorEccentric` (AccelerometerError.cpp:37-47).  `ix`, `iy`, `iz` number its members `_Ix`, `_Iy`
and `_Iz`, matrices without any entry that may change. -/
def accelerometerErrorEccentric (n ix iy iz : ℕ) (M : Expr .mat) (C_b_w : Expr .rot) (a_w ω α : Expr .euc)
    (C_i_b : Expr .rot) (rx ry rz bias g_w : Expr .euc) : Expr .euc :=
  .add (.matEuc n M (.rotEuc (n + 1) C_i_b
    (.add (.add (.add (.rotEuc (n + 2) C_b_w (.sub a_w g_w))
      (.matEuc (n + 3) (.matDv ix []) (lever α ω rx)))
      (.matEuc (n + 4) (.matDv iy []) (lever α ω ry)))
      (.matEuc (n + 5) (.matDv iz []) (lever α ω rz))))) bias

/-- `GyroscopeError` (GyroscopeError.cpp:12). -/
def gyroscopeError (ω bias : Expr .euc) : Expr .euc := .add ω bias

/-- `GyroscopeErrorEccentric` (GyroscopeError.cpp:70-73). -/
def gyroscopeErrorEccentric (n : ℕ) (M Ma : Expr .mat) (C_b_w : Expr .rot) (a_w ω α : Expr .euc) (C_i_b : Expr .rot)
    (r bias g_w : Expr .euc) : Expr .euc :=
  .add (.matEuc n M (.add (.rotEuc (n + 1) C_i_b ω)
    (.matEuc (n + 2) Ma (.rotEuc (n + 3) C_i_b
      (.add (.add (.rotEuc (n + 4) C_b_w (.sub a_w g_w)) (.cross α r)) (.cross ω (.cross ω r))))))) bias

/-! ## Predicted measurements of the Python module -/

/-- The design variables of `IccImu.addDesignVariables` (Python module 648-667), `IccScaledMisalignedImu.addDesignVariables`
(947-967) and `IccScaledMisalignedSizeEffectImu.addDesignVariables` (1095-1117), the pose spline and the gravity
(IccCalibrator.py:35-40: a point or a direction). -/
structure Setup where
  /-- the pose spline and the number of its design variables -/
  pose : PoseSpline
  poseNo : ℕ
  /-- the bias spline of the sensor and the number of its design variables -/
  bias : Spline ℝ 3
  biasNo : ℕ
  /-- `q_i_b_Dv`, `q_gyro_i_Dv` -/
  q_i_b : ℕ
  q_gyro_i : ℕ
  /-- `r_b_Dv`, `rx_i_Dv`, `ry_i_Dv`, `rz_i_Dv` -/
  r_b : ℕ
  rx_i : ℕ
  ry_i : ℕ
  rz_i : ℕ
  /-- `M_accel_Dv` or `M_gyro_Dv`, `M_accel_gyro_Dv`, `Ix_Dv`, `Iy_Dv`, `Iz_Dv` -/
  M : ℕ
  Ma : ℕ
  Ix : ℕ
  Iy : ℕ
  Iz : ℕ
  /-- the gravity, and whether it is a direction with a given magnitude -/
  g : ℕ
  gDirection : Bool

variable (S : Setup) (t : ℝ) (n : ℕ)

/-- The entries of the scale and misalignment matrices that may change: the lower triangle (Python module 955-956). -/
def lowerCells : List (Fin 3 × Fin 3) := cellsOf !![1, 0, 0; 1, 1, 0; 1, 1, 1]

/-- All the entries of `M_accel_gyro_Dv` may change (Python module 965). -/
def allCells : List (Fin 3 × Fin 3) := cellsOf !![1, 1, 1; 1, 1, 1; 1, 1, 1]

/-- `C_b_w = poseSplineDv.orientation(tk).inverse()` (691). -/
noncomputable def Setup.C_b_w : Expr .rot := .rotInv n (.leaf (orientationLeaf S.pose S.poseNo t))

/-- `a_w = poseSplineDv.linearAcceleration(tk)` (692). -/
noncomputable def Setup.a_w : Expr .euc := .leaf (accelerationLeaf S.pose S.poseNo t)

/-- `b_i = self.accelBiasDv.toEuclideanExpression(tk,0)` (693). -/
noncomputable def Setup.b_i : Expr .euc := .leaf (pointLeaf S.bias S.biasNo t 0)

/-- `w_b = poseSplineDv.angularVelocityBodyFrame(tk)` (694). -/
noncomputable def Setup.w_b : Expr .euc := .leaf (angularVelocityLeaf S.pose S.poseNo t)

/-- `w_dot_b = poseSplineDv.angularAccelerationBodyFrame(tk)` (695). -/
noncomputable def Setup.w_dot_b : Expr .euc := .leaf (angularAccelerationLeaf S.pose S.poseNo t)

/-- `C_i_b = self.q_i_b_Dv.toExpression()` (696). -/
def Setup.C_i_b : Expr .rot := .rotDv S.q_i_b

/-- `r_b = self.r_b_Dv.toExpression()` (697). -/
def Setup.rb : Expr .euc := .eucDv S.r_b

/-- `gravityExpression` (IccCalibrator.py:35-40). -/
def Setup.g_w : Expr .euc := if S.gDirection then .dirDv S.g else .eucDv S.g

/-- `C_b_w * (a_w - g_w) + w_dot_b.cross(r_b) + w_b.cross(w_b.cross(r_b))` (698-699, also 999-1000 and 1041). -/
noncomputable def Setup.a_b : Expr .euc :=
  .add (.add (.rotEuc n (S.C_b_w t (n + 1)) (.sub (S.a_w t) S.g_w)) (.cross (S.w_dot_b t) S.rb))
    (.cross (S.w_b t) (.cross (S.w_b t) S.rb))

/-- The predicted measurement of an accelerometer, `IccImu.addAccelerometerErrorTerms` (698-700). -/
noncomputable def Setup.accelerometer : Expr .euc := .add (.rotEuc n S.C_i_b (S.a_b t (n + 1))) (S.b_i t)

/-- The predicted measurement of a gyroscope, `IccImu.addGyroscopeErrorTerms` (730-735). -/
noncomputable def Setup.gyroscope : Expr .euc := .add (.rotEuc n S.C_i_b (S.w_b t)) (S.b_i t)

/-- `IccScaledMisalignedImu.addAccelerometerErrorTerms` (991-1002). -/
noncomputable def Setup.scaledAccelerometer : Expr .euc :=
  .add (.matEuc n (.matDv S.M lowerCells) (.rotEuc (n + 1) S.C_i_b (S.a_b t (n + 2)))) (S.b_i t)

/-- `IccScaledMisalignedImu.addGyroscopeErrorTerms` (1035-1051). -/
noncomputable def Setup.scaledGyroscope : Expr .euc :=
  .add (.add (.matEuc n (.matDv S.M lowerCells) (.rotEuc (n + 1) (.rotMul (n + 2) (.rotDv S.q_gyro_i) S.C_i_b) (S.w_b t)))
    (.matEuc (n + 3) (.matDv S.Ma allCells)
      (.rotEuc (n + 4) (.rotMul (n + 2) (.rotDv S.q_gyro_i) S.C_i_b) (S.a_b t (n + 5))))) (S.b_i t)

/-- `r_b + C_i_b.inverse() * r_i` (1149-1151). -/
def Setup.arm (r_i : ℕ) : Expr .euc := .add S.rb (.rotEuc n (.rotInv (n + 1) S.C_i_b) (.eucDv r_i))

/-- `I * (C_i_b * (w_dot_b.cross(r) + w_b.cross(w_b.cross(r))))` (1157-1159). -/
noncomputable def Setup.axis (I r_i : ℕ) : Expr .euc :=
  .matEuc n (.matDv I []) (.rotEuc (n + 1) S.C_i_b (lever (S.w_dot_b t) (S.w_b t) (S.arm (n + 2) r_i)))

/-- `IccScaledMisalignedSizeEffectImu.addAccelerometerErrorTerms` (1142-1161).  `rx_b`, which the code puts into the
tree twice, is one node with one address. -/
noncomputable def Setup.sizeEffectAccelerometer : Expr .euc :=
  .add (.matEuc n (.matDv S.M lowerCells)
    (.add (.add (.add (.rotEuc (n + 1) S.C_i_b (.rotEuc (n + 2) (S.C_b_w t (n + 3)) (.sub (S.a_w t) S.g_w)))
      (S.axis t (n + 4) S.Ix S.rx_i)) (S.axis t (n + 8) S.Iy S.ry_i)) (S.axis t (n + 12) S.Iz S.rz_i))) (S.b_i t)

/-- The five kinds of predicted measurements. -/
inductive Sensor
  | accelerometer | gyroscope | scaledAccelerometer | scaledGyroscope | sizeEffectAccelerometer

/-- The expression of a sensor. -/
noncomputable def Setup.predicted : Sensor → Expr .euc
  | .accelerometer => S.accelerometer t n
  | .gyroscope => S.gyroscope t n
  | .scaledAccelerometer => S.scaledAccelerometer t n
  | .scaledGyroscope => S.scaledGyroscope t n
  | .sizeEffectAccelerometer => S.sizeEffectAccelerometer t n

/-- The loop over the measurements (688-709 and the same lines of the other methods): which of the times `stamp +
timeOffset` get an error term.  Simplified: the ends of the spline are asked for once. -/
noncomputable def termTimes (P : Spline ℝ 6) (timeOffset : ℝ) (stamps : List ℝ) : Out (List ℝ) := do
  let lo ← tMin P
  let hi ← tMax P
  return (stamps.map (· + timeOffset)).filter fun tk => tk > lo ∧ tk < hi

end Kalibr.Imu
