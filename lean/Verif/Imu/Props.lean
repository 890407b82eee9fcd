import Verif.Imu.Model
import Verif.Imu.LeafProps

/-!
# Error terms of inertial measurement units: values, Jacobians and design variables (C105)
-/

namespace Kalibr.Imu

open Kalibr.BSpline hiding Regular
open Kalibr.Kin Kalibr.Exp Kalibr.Pose Matrix Finset

/-! ## Specification -/

/-- Specification: the pose spline with the present values of its design variables. -/
def Setup.spline (S : Setup) (x : State) : PoseSpline := mappedPose S.pose S.poseNo x.vecs

/-- Specification: the present gravity. -/
def Setup.gravity (S : Setup) (x : State) : V3 :=
  if S.gDirection then (x.dir S.g).mag • fun j => (x.dir S.g).C j 2 else (x.euc S.g).p

/-- Specification: a measurement at time `t` for which an error term is added: the splines have knots, the time is
strictly inside the valid interval of the pose spline and inside that of the bias spline, the parameters of the
orientation at this time are not those where the family of orientations is not differentiable, and the quaternions
are rotations. -/
structure Ready (S : Setup) (x : State) (t : ℝ) : Prop where
  pose : WellFormed S.pose.spline
  bias : WellFormed S.bias
  time : ∃ lo hi, tMin S.pose.spline = .ok lo ∧ tMax S.pose.spline = .ok hi ∧ lo < t ∧ t < hi
  biasTime : ∃ lo hi, tMin S.bias = .ok lo ∧ tMax S.bias = .ok hi ∧ lo ≤ t ∧ t ≤ hi
  supported : ∀ p, evalD (S.spline x).spline t 0 = .ok p → Supported S.pose.rot (tail p)
  q_i_b : Unit4 (x.rot S.q_i_b).q ∧ (x.rot S.q_i_b).C = quat2r (x.rot S.q_i_b).q
  q_gyro_i : Unit4 (x.rot S.q_gyro_i).q ∧ (x.rot S.q_gyro_i).C = quat2r (x.rot S.q_gyro_i).q

variable {S : Setup} {x : State} {t : ℝ}

theorem Ready.index (h : Ready S x t) : ∃ q, computeTIndex S.pose.spline t = .ok q := by
  obtain ⟨lo, hi, h1, h2, h3, h4⟩ := h.time
  exact accepted h.pose h1 h2 h3.le h4.le

theorem Ready.biasIndex (h : Ready S x t) : ∃ q, computeTIndex S.bias t = .ok q := by
  obtain ⟨lo, hi, h1, h2, h3, h4⟩ := h.biasTime
  exact accepted h.bias h1 h2 h3 h4

theorem Ready.eval (h : Ready S x t) : ∃ p, evalD (mapped S.pose.spline S.poseNo x.vecs) t 0 = .ok p := by
  obtain ⟨q, hq⟩ := h.index
  exact ⟨_, evalD_of (mapped_wf h.pose S.poseNo x.vecs) (t := t) (p := q) hq 0⟩

theorem Ready.leaves (h : Ready S x t) : Regular x (.leaf (orientationLeaf S.pose S.poseNo t)) ∧
    Regular x (S.a_w t) ∧ Regular x (S.w_b t) ∧ Regular x (S.w_dot_b t) ∧ Regular x (S.b_i t) ∧ Regular x S.g_w := by
  obtain ⟨p, hp⟩ := h.eval
  obtain ⟨q, hq⟩ := h.biasIndex
  have hs := h.supported p hp
  refine ⟨orientation_correct h.pose S.poseNo hp hs, acceleration_correct h.pose S.poseNo hp,
    angularVelocity_correct h.pose S.poseNo hp hs, angularAcceleration_correct h.pose S.poseNo hp hs,
    point_correct h.bias hq _ _ _, ?_⟩
  unfold Setup.g_w
  split <;> simp [Regular]

/-- The sensors have a right Jacobian. -/
theorem Ready.regular (h : Ready S x t) (n : ℕ) (k : Sensor) : Regular x (S.predicted t n k) := by
  obtain ⟨h1, h2, h3, h4, h5, h6⟩ := h.leaves
  simp only [Regular] at h1
  have hi := h.q_i_b
  have hg := h.q_gyro_i
  cases k <;>
    simp only [Setup.predicted, Setup.accelerometer, Setup.gyroscope, Setup.scaledAccelerometer, Setup.scaledGyroscope,
      Setup.sizeEffectAccelerometer, Setup.a_b, Setup.axis, Setup.arm, Setup.C_b_w, Setup.C_i_b, Setup.rb, lever,
      Regular, and_self, and_true, true_and, h1, h2, h3, h4, h5, h6, hi, hg]

theorem Ready.honest (h : Ready S x t) : (orientationLeaf S.pose S.poseNo t).Honest ∧
    (accelerationLeaf S.pose S.poseNo t).Honest ∧ (angularVelocityLeaf S.pose S.poseNo t).Honest ∧
    (angularAccelerationLeaf S.pose S.poseNo t).Honest ∧ (pointLeaf S.bias S.biasNo t 0).Honest := by
  obtain ⟨q, hq⟩ := h.index
  obtain ⟨r, hr⟩ := h.biasIndex
  exact ⟨orientation_honest h.pose hq _, acceleration_honest h.pose hq _, angularVelocity_honest h.pose hq _,
    angularAcceleration_honest h.pose hq _, point_honest h.bias hr _ _⟩

/-- The nodes at the addresses of a tree. -/
noncomputable def table (S : Setup) (t : ℝ) (n : ℕ) (k : Sensor) (i : ℕ) : (k : Kind) × Expr k :=
  match k, i - n with
  | .accelerometer, 0 => ⟨_, .rotEuc n S.C_i_b (S.a_b t (n + 1))⟩
  | .accelerometer, 1 => ⟨_, .rotEuc (n + 1) (S.C_b_w t (n + 2)) (.sub (S.a_w t) S.g_w)⟩
  | .accelerometer, 2 => ⟨_, S.C_b_w t (n + 2)⟩
  | .gyroscope, 0 => ⟨_, .rotEuc n S.C_i_b (S.w_b t)⟩
  | .scaledAccelerometer, 0 => ⟨_, .matEuc n (.matDv S.M lowerCells) (.rotEuc (n + 1) S.C_i_b (S.a_b t (n + 2)))⟩
  | .scaledAccelerometer, 1 => ⟨_, .rotEuc (n + 1) S.C_i_b (S.a_b t (n + 2))⟩
  | .scaledAccelerometer, 2 => ⟨_, .rotEuc (n + 2) (S.C_b_w t (n + 3)) (.sub (S.a_w t) S.g_w)⟩
  | .scaledAccelerometer, 3 => ⟨_, S.C_b_w t (n + 3)⟩
  | .scaledGyroscope, 0 => ⟨_, .matEuc n (.matDv S.M lowerCells)
      (.rotEuc (n + 1) (.rotMul (n + 2) (.rotDv S.q_gyro_i) S.C_i_b) (S.w_b t))⟩
  | .scaledGyroscope, 1 => ⟨_, .rotEuc (n + 1) (.rotMul (n + 2) (.rotDv S.q_gyro_i) S.C_i_b) (S.w_b t)⟩
  | .scaledGyroscope, 2 => ⟨_, .rotMul (n + 2) (.rotDv S.q_gyro_i) S.C_i_b⟩
  | .scaledGyroscope, 3 => ⟨_, .matEuc (n + 3) (.matDv S.Ma allCells)
      (.rotEuc (n + 4) (.rotMul (n + 2) (.rotDv S.q_gyro_i) S.C_i_b) (S.a_b t (n + 5)))⟩
  | .scaledGyroscope, 4 => ⟨_, .rotEuc (n + 4) (.rotMul (n + 2) (.rotDv S.q_gyro_i) S.C_i_b) (S.a_b t (n + 5))⟩
  | .scaledGyroscope, 5 => ⟨_, .rotEuc (n + 5) (S.C_b_w t (n + 6)) (.sub (S.a_w t) S.g_w)⟩
  | .scaledGyroscope, 6 => ⟨_, S.C_b_w t (n + 6)⟩
  | .sizeEffectAccelerometer, 0 => ⟨_, .matEuc n (.matDv S.M lowerCells)
      (.add (.add (.add (.rotEuc (n + 1) S.C_i_b (.rotEuc (n + 2) (S.C_b_w t (n + 3)) (.sub (S.a_w t) S.g_w)))
      (S.axis t (n + 4) S.Ix S.rx_i)) (S.axis t (n + 8) S.Iy S.ry_i)) (S.axis t (n + 12) S.Iz S.rz_i))⟩
  | .sizeEffectAccelerometer, 1 => ⟨_, .rotEuc (n + 1) S.C_i_b (.rotEuc (n + 2) (S.C_b_w t (n + 3)) (.sub (S.a_w t) S.g_w))⟩
  | .sizeEffectAccelerometer, 2 => ⟨_, .rotEuc (n + 2) (S.C_b_w t (n + 3)) (.sub (S.a_w t) S.g_w)⟩
  | .sizeEffectAccelerometer, 3 => ⟨_, S.C_b_w t (n + 3)⟩
  | .sizeEffectAccelerometer, 4 => ⟨_, S.axis t (n + 4) S.Ix S.rx_i⟩
  | .sizeEffectAccelerometer, 5 => ⟨_, .rotEuc (n + 5) S.C_i_b (lever (S.w_dot_b t) (S.w_b t) (S.arm (n + 6) S.rx_i))⟩
  | .sizeEffectAccelerometer, 6 => ⟨_, .rotEuc (n + 6) (.rotInv (n + 7) S.C_i_b) (.eucDv S.rx_i)⟩
  | .sizeEffectAccelerometer, 7 => ⟨_, .rotInv (n + 7) S.C_i_b⟩
  | .sizeEffectAccelerometer, 8 => ⟨_, S.axis t (n + 8) S.Iy S.ry_i⟩
  | .sizeEffectAccelerometer, 9 => ⟨_, .rotEuc (n + 9) S.C_i_b (lever (S.w_dot_b t) (S.w_b t) (S.arm (n + 10) S.ry_i))⟩
  | .sizeEffectAccelerometer, 10 => ⟨_, .rotEuc (n + 10) (.rotInv (n + 11) S.C_i_b) (.eucDv S.ry_i)⟩
  | .sizeEffectAccelerometer, 11 => ⟨_, .rotInv (n + 11) S.C_i_b⟩
  | .sizeEffectAccelerometer, 12 => ⟨_, S.axis t (n + 12) S.Iz S.rz_i⟩
  | .sizeEffectAccelerometer, 13 => ⟨_, .rotEuc (n + 13) S.C_i_b (lever (S.w_dot_b t) (S.w_b t) (S.arm (n + 14) S.rz_i))⟩
  | .sizeEffectAccelerometer, 14 => ⟨_, .rotEuc (n + 14) (.rotInv (n + 15) S.C_i_b) (.eucDv S.rz_i)⟩
  | .sizeEffectAccelerometer, 15 => ⟨_, .rotInv (n + 15) S.C_i_b⟩
  | _, _ => ⟨_, .eucConst 0⟩

/-- The addresses of the nodes identify them. -/
theorem Ready.wf (h : Ready S x t) (n : ℕ) (k : Sensor) : WF (table S t n k) (S.predicted t n k) := by
  obtain ⟨h1, h2, h3, h4, h5⟩ := h.honest
  have hg (f) : WF f S.g_w := by unfold Setup.g_w; split <;> simp [WF]
  cases k <;>
    simp only [Setup.predicted, Setup.accelerometer, Setup.gyroscope, Setup.scaledAccelerometer, Setup.scaledGyroscope,
      Setup.sizeEffectAccelerometer, Setup.a_b, Setup.axis, Setup.arm, Setup.C_b_w, Setup.C_i_b, Setup.rb, Setup.a_w,
      Setup.w_b, Setup.w_dot_b, Setup.b_i, lever, WF, hg, h1, h2, h3, h4, h5, and_self, and_true, true_and, table,
      Nat.add_sub_cancel_left, Nat.sub_self, Nat.add_assoc, Nat.reduceAdd]

/-! ## Theorems -/

theorem errorTerm_jacobian {e : Expr .euc} (f : ℕ → (k : Kind) × Expr k)
    (hw : WF f e) (hr : Regular x e) (m : V3) (c₀ c₁ : Cache)
    (hs : Steps f x (euclideanError x e m c₀).2 c₁) (δ : Incr) :
    (euclideanError x e m c₀).1 = val x e - m ∧
    (∀ cs : ℝ → Cache, HasDerivAt (fun s => (euclideanError (along x δ s) e m (cs s)).1)
      (lin (euclideanErrorJac x e c₁).1 δ) 0) ∧
    ∀ d : DV, d ∈ (euclideanErrorJac x e c₁).1.map Sigma.fst ↔ d ∈ dvs e := by
  obtain ⟨ξ, h1, -, h3⟩ := C93_jacobian f x e hw hr c₀ c₁ hs δ
  refine ⟨?_, fun cs => ?_, fun d => (C94_complete f x e hw c₁ d).2 (by simp)⟩
  · show (fun j => (eval x e c₀).1 j - m j) = _
    rw [(C93_value f x e hw c₀).1]
    rfl
  · have hm := h1 cs
    rw [show lin (euclideanErrorJac x e c₁).1 δ = ξ from h3 (by simp)]
    have hm' : HasDerivAt (fun s => (eval (along x δ s) e (cs s)).1) ξ 0 := hm
    exact hm'.sub_const m

/-- **C105** (Jacobians).  For every measurement that gets an error term, every kind of sensor, and whatever was
evaluated in between: the error is the prediction minus the measurement; the Jacobian of the error term is the
derivative of the error along every update of the design variables; and the variables the Jacobian has blocks for are
the ones the error term reports. -/
theorem C105_jacobian (h : Ready S x t) (n : ℕ) (k : Sensor) (f : ℕ → (k : Kind) × Expr k)
    (hw : WF f (S.predicted t n k)) (m : V3) (c₀ c₁ : Cache)
    (hs : Steps f x (euclideanError x (S.predicted t n k) m c₀).2 c₁) (δ : Incr) :
    (euclideanError x (S.predicted t n k) m c₀).1 = val x (S.predicted t n k) - m ∧
    (∀ cs : ℝ → Cache, HasDerivAt (fun s => (euclideanError (along x δ s) (S.predicted t n k) m (cs s)).1)
      (lin (euclideanErrorJac x (S.predicted t n k) c₁).1 δ) 0) ∧
    ∀ d : DV, d ∈ (euclideanErrorJac x (S.predicted t n k) c₁).1.map Sigma.fst ↔ d ∈ dvs (S.predicted t n k) :=
  errorTerm_jacobian f hw (h.regular n k) m c₀ c₁ hs δ

/-- Beside `C105_jacobian`: the addresses of the trees the code builds do identify the nodes. -/
theorem C105_addresses (h : Ready S x t) (n : ℕ) (k : Sensor) :
    ∃ f : ℕ → (k : Kind) × Expr k, WF f (S.predicted t n k) := ⟨_, h.wf n k⟩

/-- **C105** (values).  The predictions, in terms of what the pose spline and the bias spline return at the time of the
measurement. -/
theorem C105_value (h : Ready S x t) (n : ℕ) :
    ∃ (C : M3) (a ω α β : V3), orientation (S.spline x) t = .ok C ∧ linearAcceleration (S.spline x) t = .ok a ∧
      angularVelocityBodyFrame (S.spline x) t = .ok ω ∧ angularAccelerationBodyFrame (S.spline x) t = .ok α ∧
      evalD (mapped S.bias S.biasNo x.vecs) t 0 = .ok β ∧ C ∈ SO3 ∧
      let B := (x.rot S.q_i_b).C
      let G := (x.rot S.q_gyro_i).C
      let M := (x.mat S.M lowerCells).A
      let A := (x.mat S.Ma allCells).A
      let g := S.gravity x
      let f : V3 → V3 := fun r => Cᵀ.mulVec (a - g) + crossProduct α r + crossProduct ω (crossProduct ω r)
      let r := (x.euc S.r_b).p
      val x (S.predicted t n .accelerometer) = B.mulVec (f r) + β ∧
      val x (S.predicted t n .gyroscope) = B.mulVec ω + β ∧
      val x (S.predicted t n .scaledAccelerometer) = M.mulVec (B.mulVec (f r)) + β ∧
      val x (S.predicted t n .scaledGyroscope) =
        M.mulVec (G.mulVec (B.mulVec ω)) + A.mulVec (G.mulVec (B.mulVec (f r))) + β ∧
      ((x.mat S.Ix []).A = Matrix.diagonal ![1, 0, 0] → (x.mat S.Iy []).A = Matrix.diagonal ![0, 1, 0] →
        (x.mat S.Iz []).A = Matrix.diagonal ![0, 0, 1] →
        val x (S.predicted t n .sizeEffectAccelerometer) = M.mulVec (
          ![B.mulVec (f (r + Bᵀ.mulVec (x.euc S.rx_i).p)) 0, B.mulVec (f (r + Bᵀ.mulVec (x.euc S.ry_i).p)) 1,
            B.mulVec (f (r + Bᵀ.mulVec (x.euc S.rz_i).p)) 2]) + β) := by
  obtain ⟨q, hq⟩ := h.index
  obtain ⟨r, hr⟩ := h.biasIndex
  obtain ⟨W, v, e1, _⟩ := core (P := S.spline x) (mapped_wf h.pose S.poseNo x.vecs) hq
  obtain ⟨V, hV⟩ := point_core h.bias hr S.biasNo 0
  have hs := h.supported _ (e1 0)
  have e2 : orientation (S.spline x) t = .ok (S.pose.rot.toR (tail (v 0))) := by rw [orientation, e1]; rfl
  have e3 : linearAcceleration (S.spline x) t = .ok (head (v 2)) := by rw [linearAcceleration, e1]; rfl
  have e4 : angularVelocityBodyFrame (S.spline x) t =
      .ok ((-(S.pose.rot.toR (tail (v 0)))ᵀ * S.pose.rot.S (tail (v 0))).mulVec (tail (v 1))) := by
    rw [angularVelocityBodyFrame, e1]; simp only [Out.ok_bind]; rw [e1]; rfl
  have e5 : angularAccelerationBodyFrame (S.spline x) t =
      .ok ((-(S.pose.rot.toR (tail (v 0)))ᵀ * S.pose.rot.S (tail (v 0))).mulVec (tail (v 2))) := by
    rw [angularAccelerationBodyFrame, e1]; simp only [Out.ok_bind]; rw [e1]; rfl
  have e6 := (hV x.vecs).1
  have hC := hs.so3 (tail (v 0))
  generalize S.pose.rot.toR (tail (v 0)) = C at e2 e4 e5 hC
  generalize head (v 2) = a at e3
  generalize (-Cᵀ * S.pose.rot.S (tail (v 0))).mulVec (tail (v 1)) = ω at e4
  generalize (-Cᵀ * S.pose.rot.S (tail (v 0))).mulVec (tail (v 2)) = α at e5
  generalize (∑ c ∈ range S.bias.order, V c • x.vecs (S.biasNo + (r.2 + 1 - S.bias.order + c)) 3) = β at e6
  refine ⟨C, a, ω, α, β, e2, e3, e4, e5, e6, hC, ?_⟩
  have v1 : val x (.leaf (orientationLeaf S.pose S.poseNo t)) = C := by
    show orElse (orientation (S.spline x) t) 1 = C
    rw [e2]; rfl
  have v2 : val x (S.a_w t) = a := by
    show orElse (linearAcceleration (S.spline x) t) 0 = a
    rw [e3]; rfl
  have v3 : val x (S.w_b t) = ω := by
    show orElse (angularVelocityBodyFrame (S.spline x) t) 0 = ω
    rw [e4]; rfl
  have v4 : val x (S.w_dot_b t) = α := by
    show orElse (angularAccelerationBodyFrame (S.spline x) t) 0 = α
    rw [e5]; rfl
  have v5 : val x (S.b_i t) = β := by
    show orElse (evalD (mapped S.bias S.biasNo x.vecs) t 0) 0 = β
    rw [e6]; rfl
  have v6 : val x S.g_w = S.gravity x := by
    unfold Setup.g_w Setup.gravity
    split <;> rfl
  have ec (u w : V3) : crossProduct u w = (crossMx u).mulVec w := (crossMx_mulVec u w).symm
  simp only [Setup.predicted, Setup.accelerometer, Setup.gyroscope, Setup.scaledAccelerometer, Setup.scaledGyroscope,
    Setup.sizeEffectAccelerometer, Setup.a_b, Setup.axis, Setup.arm, Setup.C_b_w, Setup.C_i_b, Setup.rb, lever, Exp.val]
  simp only [Exp.val] at v1
  simp only [v1, v2, v3, v4, v5, v6, ec]
  refine ⟨rfl, rfl, rfl, ?_, fun hx hy hz => ?_⟩
  · simp only [← Matrix.mulVec_mulVec]
    rfl
  · rw [hx, hy, hz]
    funext j
    refine congrArg (fun u : V3 => ((x.mat S.M lowerCells).A.mulVec u) j + β j) ?_
    have e0 (u w : V3) : (fun i => u i + w i) = u + w := rfl
    simp only [e0, Matrix.mulVec_diagonal, add_assoc]
    set B := (x.rot S.q_i_b).C
    set r := (x.euc S.r_b).p
    set L : V3 → V3 := fun u => (crossMx α).mulVec (r + Bᵀ.mulVec u) + (crossMx ω).mulVec ((crossMx ω).mulVec (r + Bᵀ.mulVec u))
    change B.mulVec (Cᵀ.mulVec (a - S.gravity x)) + ((fun i => ![1, 0, 0] i * B.mulVec (L (x.euc S.rx_i).p) i) +
      ((fun i => ![0, 1, 0] i * B.mulVec (L (x.euc S.ry_i).p) i) + (fun i => ![0, 0, 1] i * B.mulVec (L (x.euc S.rz_i).p) i))) =
      ![B.mulVec (Cᵀ.mulVec (a - S.gravity x) + L (x.euc S.rx_i).p) 0,
        B.mulVec (Cᵀ.mulVec (a - S.gravity x) + L (x.euc S.ry_i).p) 1,
        B.mulVec (Cᵀ.mulVec (a - S.gravity x) + L (x.euc S.rz_i).p) 2]
    simp only [Matrix.mulVec_add]
    apply ext3 <;> simp

end Kalibr.Imu
