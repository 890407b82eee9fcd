import Verif.Pose.Jacs

/-! # Pose splines: velocities and accelerations are the derivatives of the pose -/

namespace Kalibr.Pose

open Kalibr.Kin Kalibr.BSpline Matrix Finset Kalibr.Exp

/-! ## The curve and its derivatives -/

/-- The derivative of order `n` as a vector. -/
noncomputable def curveV (P : PoseSpline) (n : ℕ) (x : ℝ) : V6 := fun e => curveD P.spline e n x

theorem eval_curveV {P : PoseSpline} (w : WellFormed P.spline) {idx : ℕ} {t : ℝ} (h : Inside P.spline idx t) (n : ℕ) :
    evalD P.spline t n = .ok (curveV P n t) := by
  have := evalD_of w (computeTIndex_inside w h) n
  rw [this]
  congr 1
  funext e
  unfold curveV curveD
  rw [this]

theorem curveV_deriv {P : PoseSpline} (w : WellFormed P.spline) {idx : ℕ} {t : ℝ} (h : Inside P.spline idx t) (n : ℕ) :
    HasDerivAt (curveV P n) (curveV P (n + 1) t) t := by
  rw [hasDerivAt_pi]
  intro e
  exact (C46_derivative_partial w h e n).2

theorem head_deriv {f : ℝ → V6} {d : V6} {t : ℝ} (h : HasDerivAt f d t) : HasDerivAt (fun x => head (f x)) (head d) t := by
  rw [hasDerivAt_pi] at *
  intro i
  fin_cases i
  · exact h 0
  · exact h 1
  · exact h 2

theorem tail_deriv {f : ℝ → V6} {d : V6} {t : ℝ} (h : HasDerivAt f d t) : HasDerivAt (fun x => tail (f x)) (tail d) t := by
  rw [hasDerivAt_pi] at *
  intro i
  fin_cases i
  · exact h 3
  · exact h 4
  · exact h 5

theorem Supported.dr {R : RotKin} {p : V3} (h : Supported R p) (q r : V3) : (R.jac q r).dr = R.S q := by
  cases h with
  | rodrigues =>
    show (erJac q r).dr = erS q
    unfold erJac erS
    simp only
    rw [show 2 * (1 / (1 + sqNorm3 q)) = 2 / (1 + sqNorm3 q) by ring]
  | _ => rfl

/-! ## Poses -/

section
variable {P : PoseSpline} (w : WellFormed P.spline) {t : ℝ}
include w

/-- Between the ends of the valid time interval every method returns.  The pose is a rigid transformation made of the
position and the orientation, and the inverse pose and the inverse orientation are their inverses. -/
theorem C98_pose {lo hi : ℝ} (hlo : tMin P.spline = .ok lo) (hhi : tMax P.spline = .ok hi) (h1 : lo ≤ t) (h2 : t ≤ hi)
    (hR : ∃ p, Supported P.rot p) :
    ∃ T U C D r, transformation P t = .ok T ∧ inverseTransformation P t = .ok U ∧ orientation P t = .ok C ∧
      inverseOrientation P t = .ok D ∧ position P t = .ok r ∧
      C ∈ SO3 ∧ (∀ y : V3, T.mulVec ![y 0, y 1, y 2, 1] =
        ![(C.mulVec y + r) 0, (C.mulVec y + r) 1, (C.mulVec y + r) 2, 1]) ∧
      T * U = 1 ∧ U * T = 1 ∧ C * D = 1 ∧ D * C = 1 := by
  obtain ⟨q, hq⟩ := accepted w hlo hhi h1 h2
  obtain ⟨W, v, e1, _⟩ := core w hq
  obtain ⟨p, hs⟩ := hR
  have hC := hs.so3 (tail (v 0))
  refine ⟨curveValueToTransformation P (v 0), invertInPlace (curveValueToTransformation P (v 0)), P.rot.toR (tail (v 0)),
    (P.rot.toR (tail (v 0)))ᵀ, head (v 0), by rw [transformation, e1]; rfl, by rw [inverseTransformation, e1]; rfl,
    by rw [orientation, e1]; rfl, by rw [inverseOrientation, e1]; rfl, by rw [position, e1]; rfl, hC, ?_, ?_, ?_,
    (SO3_tr hC).2, (SO3_tr hC).1⟩
  · intro y
    apply ext4 <;> simp [curveValueToTransformation, rt2Transform, Matrix.mulVec, dotProduct, Fin.sum_univ_four,
      Fin.sum_univ_three]
  · rw [curveValueToTransformation, invertInPlace_eq hC]
    exact Matrix.mul_nonsing_inv _ ((Matrix.isUnit_iff_isUnit_det _).mp (rt_unit hC _))
  · rw [curveValueToTransformation, invertInPlace_eq hC]
    exact Matrix.nonsing_inv_mul _ ((Matrix.isUnit_iff_isUnit_det _).mp (rt_unit hC _))

/-- The body frame methods return the same vectors, in coordinates of the body. -/
theorem C98_body_frame {lo hi : ℝ} (hlo : tMin P.spline = .ok lo) (hhi : tMax P.spline = .ok hi) (h1 : lo ≤ t)
    (h2 : t ≤ hi) (hR : ∃ p, Supported P.rot p) :
    ∃ C v vb a ab ω ωb, orientation P t = .ok C ∧ linearVelocity P t = .ok v ∧ linearVelocityBodyFrame P t = .ok vb ∧
      linearAcceleration P t = .ok a ∧ linearAccelerationBodyFrame P t = .ok ab ∧ angularVelocity P t = .ok ω ∧
      angularVelocityBodyFrame P t = .ok ωb ∧ v = C.mulVec vb ∧ a = C.mulVec ab ∧ ω = C.mulVec ωb := by
  obtain ⟨q, hq⟩ := accepted w hlo hhi h1 h2
  obtain ⟨W, v, e1, _⟩ := core w hq
  obtain ⟨p, hs⟩ := hR
  have hC := SO3_tr (hs.so3 (tail (v 0)))
  refine ⟨_, _, _, _, _, _, _, by rw [orientation, e1]; rfl, by rw [linearVelocity, e1]; rfl,
    by rw [linearVelocityBodyFrame, e1]; simp only [Out.ok_bind]; rw [e1]; rfl, by rw [linearAcceleration, e1]; rfl,
    by rw [linearAccelerationBodyFrame, e1]; simp only [Out.ok_bind]; rw [e1]; rfl,
    by rw [angularVelocity, e1]; simp only [Out.ok_bind]; rw [e1]; rfl,
    by rw [angularVelocityBodyFrame, e1]; simp only [Out.ok_bind]; rw [e1]; rfl, ?_, ?_, ?_⟩
  · rw [Matrix.mulVec_mulVec, hC.2, Matrix.one_mulVec]
  · rw [Matrix.mulVec_mulVec, hC.2, Matrix.one_mulVec]
  · rw [Matrix.mulVec_mulVec, ← Matrix.mul_assoc, Matrix.mul_neg, hC.2, neg_mul, Matrix.one_mul]

/-- Strictly inside a segment the velocity is the derivative of the position and the acceleration is the derivative of
the velocity. -/
theorem C98_linear_rates {idx : ℕ} (h : Inside P.spline idx t) : ∃ r v a : ℝ → V3,
    (∀ᶠ x in nhds t, position P x = .ok (r x) ∧ linearVelocity P x = .ok (v x) ∧ linearAcceleration P x = .ok (a x)) ∧
      HasDerivAt r (v t) t ∧ HasDerivAt v (a t) t := by
  refine ⟨fun x => head (curveV P 0 x), fun x => head (curveV P 1 x), fun x => head (curveV P 2 x), ?_,
    head_deriv (curveV_deriv w h 0), head_deriv (curveV_deriv w h 1)⟩
  filter_upwards [inside_eventually h] with x hx
  exact ⟨by rw [position, eval_curveV w hx]; rfl, by rw [linearVelocity, eval_curveV w hx]; rfl,
    by rw [linearAcceleration, eval_curveV w hx]; rfl⟩

/-- Strictly inside a segment the angular velocities are those of the orientation: a vector that is fixed in the body
moves with `d/dt (C y) = ω × (C y) = C (ωb × y)`. -/
theorem C98_angular_rates {idx : ℕ} (h : Inside P.spline idx t) {p : V6} (hp : evalD P.spline t 0 = .ok p)
    (hs : Supported P.rot (tail p)) : ∃ (C : ℝ → M3) (ω ωb : V3), (∀ᶠ x in nhds t, orientation P x = .ok (C x)) ∧
      angularVelocity P t = .ok ω ∧ angularVelocityBodyFrame P t = .ok ωb ∧
      ∀ y : V3, HasDerivAt (fun x => (C x).mulVec y) (crossProduct ω ((C t).mulVec y)) t ∧
        HasDerivAt (fun x => (C x).mulVec y) ((C t).mulVec (crossProduct ωb y)) t := by
  have e0 : curveV P 0 t = p := by
    have := (eval_curveV w h 0).symm.trans hp
    simpa using this
  have hr := hs.rates (fun x => tail (curveV P 0 x)) _ t (by rw [e0]) (tail_deriv (curveV_deriv w h 0))
  have first (y : V3) : HasDerivAt (fun x => (P.rot.toR (tail (curveV P 0 x))).mulVec y)
      (crossProduct ((-P.rot.S (tail p)).mulVec (tail (curveV P 1 t)))
        ((P.rot.toR (tail (curveV P 0 t))).mulVec y)) t := by
    rw [hasDerivAt_pi]
    intro i
    refine (hr y i).congr_deriv ?_
    rw [Matrix.neg_mulVec, LinearMap.map_neg₂]
    rfl
  have hC := hs.so3 (tail p)
  refine ⟨fun x => P.rot.toR (tail (curveV P 0 x)), (-P.rot.S (tail p)).mulVec (tail (curveV P 1 t)),
    (-(P.rot.toR (tail p))ᵀ * P.rot.S (tail p)).mulVec (tail (curveV P 1 t)), ?_, ?_, ?_, fun y => ⟨first y, ?_⟩⟩
  · filter_upwards [inside_eventually h] with x hx
    rw [orientation, eval_curveV w hx]; rfl
  · rw [angularVelocity, hp]; simp only [Out.ok_bind]; rw [eval_curveV w h]; rfl
  · rw [angularVelocityBodyFrame, hp]; simp only [Out.ok_bind]; rw [eval_curveV w h]; rfl
  · refine (first y).congr_deriv ?_
    simp only [e0]
    rw [← crossMx_mulVec, ← crossMx_mulVec, Matrix.mulVec_mulVec, Matrix.mulVec_mulVec, ← SO3_cross hC,
      Matrix.mulVec_mulVec, ← Matrix.mul_assoc, Matrix.mul_neg, (SO3_tr hC).2, neg_mul, Matrix.one_mul]

/-- `angularAccelerationBodyFrame` is the derivative of `angularVelocityBodyFrame` up to the term
`Cᵀ (∂(S ṗ)/∂p) ṗ`, which it leaves out.  Full statement: without this term. -/
theorem C98_angular_acceleration_partial {idx : ℕ} (h : Inside P.spline idx t) {p v : V6}
    (hp : evalD P.spline t 0 = .ok p) (hv : evalD P.spline t 1 = .ok v) (hs : Supported P.rot (tail p)) :
    ∃ (ω : ℝ → V3) (α : V3), (∀ᶠ x in nhds t, angularVelocityBodyFrame P x = .ok (ω x)) ∧
      angularAccelerationBodyFrame P t = .ok α ∧
      HasDerivAt ω (α - ((P.rot.toR (tail p))ᵀ * (P.rot.jac (tail p) (tail v)).dp).mulVec (tail v)) t := by
  have e0 : curveV P 0 t = p := by
    have := (eval_curveV w h 0).symm.trans hp
    simpa using this
  have e1 : curveV P 1 t = v := by
    have := (eval_curveV w h 1).symm.trans hv
    simpa using this
  refine ⟨fun x => (-(P.rot.toR (tail (curveV P 0 x)))ᵀ * P.rot.S (tail (curveV P 0 x))).mulVec (tail (curveV P 1 x)),
    (-(P.rot.toR (tail p))ᵀ * P.rot.S (tail p)).mulVec (tail (curveV P 2 t)), ?_, ?_, ?_⟩
  · filter_upwards [inside_eventually h] with x hx
    rw [angularVelocityBodyFrame, eval_curveV w hx]; simp only [Out.ok_bind]; rw [eval_curveV w hx]; rfl
  · rw [angularAccelerationBodyFrame, hp]; simp only [Out.ok_bind]; rw [eval_curveV w h]; rfl
  · have hsh : HasDerivAt (fun s : ℝ => t + s) 1 0 := by simpa using (hasDerivAt_id (0 : ℝ)).const_add t
    have d0 : HasDerivAt (fun s => tail (curveV P 0 (t + s))) (tail v) 0 := by
      have := HasDerivAt.scomp (𝕜 := ℝ) 0 (by simpa using tail_deriv (curveV_deriv w h 0)) hsh
      simpa [Function.comp_def, e1] using this
    have d1 : HasDerivAt (fun s => tail (curveV P 1 (t + s))) (tail (curveV P 2 t)) 0 := by
      have := HasDerivAt.scomp (𝕜 := ℝ) 0 (by simpa using tail_deriv (curveV_deriv w h 1)) hsh
      simpa [Function.comp_def] using this
    have h1 := rotInv_moves (hs.so3 _) (hs.rates _ _ 0 (by simp [e0]) d0)
    have h2 := hs.jac _ _ _ _ 0 (by simp [e0]) d0 d1
    have h3 := (rotEuc_moves h1 h2).fun_neg
    simp only [hs.omega] at h3
    simp only [add_zero, e0, e1] at h3
    have e2 : ((P.rot.jac (tail p) (tail v)).dr).mulVec (tail (curveV P 2 t)) =
        (P.rot.S (tail p)).mulVec (tail (curveV P 2 t)) := by
      rw [hs.dr]
    have h4 : HasDerivAt (fun s => (-(P.rot.toR (tail (curveV P 0 (t + s))))ᵀ *
        P.rot.S (tail (curveV P 0 (t + s)))).mulVec (tail (curveV P 1 (t + s))))
        ((-(P.rot.toR (tail p))ᵀ * P.rot.S (tail p)).mulVec (tail (curveV P 2 t)) -
          ((P.rot.toR (tail p))ᵀ * (P.rot.jac (tail p) (tail v)).dp).mulVec (tail v)) 0 := by
      have e3 : (fun s => (-(P.rot.toR (tail (curveV P 0 (t + s))))ᵀ *
          P.rot.S (tail (curveV P 0 (t + s)))).mulVec (tail (curveV P 1 (t + s)))) =
          fun s => -((P.rot.toR (tail (curveV P 0 (t + s))))ᵀ.mulVec
            ((P.rot.S (tail (curveV P 0 (t + s)))).mulVec (tail (curveV P 1 (t + s))))) := by
        funext s
        rw [← Matrix.mulVec_mulVec, Matrix.neg_mulVec]
      rw [e3]
      refine h3.congr_deriv ?_
      have e4 (u : V3) : (crossMx u).mulVec u = 0 := by rw [crossMx_mulVec]; exact cross_self u
      rw [Matrix.neg_mulVec, Matrix.mulVec_neg, e4, neg_zero, zero_add, Matrix.mulVec_add, e2]
      simp only [← Matrix.mulVec_mulVec, Matrix.neg_mulVec]
      abel
    have hb : HasDerivAt (fun x : ℝ => x - t) 1 t := by simpa using (hasDerivAt_id t).sub_const t
    have := HasDerivAt.scomp (𝕜 := ℝ) t (by simpa using h4) hb
    simpa [Function.comp_def] using this

end

/-! ## A concrete spline -/

/-- A straight line from `a` at time 1 to `b` at time 2. -/
noncomputable def lineSpline (R : RotKin) (a b : V6) : PoseSpline :=
  ⟨⟨2, [0, 1, 2, 3], [a, b], initBasis 2 [0, 1, 2, 3]⟩, R⟩

theorem line_wf (R : RotKin) (a b : V6) : WellFormed (lineSpline R a b).spline where
  order_ge := by simp [lineSpline]
  enough := by simp [lineSpline]
  count := by simp [lineSpline]
  basis_eq := rfl
  sorted := (nondecreasing_iff _).1 (by unfold Nondecreasing; simp [lineSpline]; norm_num)

theorem line_inside (R : RotKin) (a b : V6) {t : ℝ} (h1 : 1 < t) (h2 : t < 2) :
    Inside (lineSpline R a b).spline 1 t := by
  refine ⟨?_, ?_, ?_, ?_, Or.inr ?_⟩ <;> simp [lineSpline, knotAt] <;> linarith

theorem line_eval (R : RotKin) (a b : V6) {t : ℝ} (h1 : 1 < t) (h2 : t < 2) :
    evalD (lineSpline R a b).spline t 0 = .ok (a + (t - 1) • (b - a)) ∧
    evalD (lineSpline R a b).spline t 1 = .ok (b - a) ∧ evalD (lineSpline R a b).spline t 2 = .ok 0 := by
  have hw := line_wf R a b
  have hi := computeTIndex_inside hw (line_inside R a b h1 h2)
  have hn : normTime (lineSpline R a b).spline t 1 = t - 1 := by
    simp [normTime, lineSpline, knotAt]; norm_num
  refine ⟨?_, ?_, ?_⟩
  · rw [evalD_of hw hi, hn]
    congr 1
    funext e
    simp [lineSpline, weights, basisM, computeU, matA, BSpline.matB, d0, d1, dmul, knotAt, Finset.sum_range_succ]
    norm_num
    ring
  · rw [evalD_of hw hi, hn]
    congr 1
    funext e
    simp [lineSpline, weights, basisM, computeU, matA, BSpline.matB, d0, d1, dmul, knotAt, Finset.sum_range_succ]
    norm_num
    ring
  · rw [evalD_of hw hi, hn]
    congr 1
    funext e
    simp [lineSpline, weights, basisM, computeU, matA, BSpline.matB, d0, d1, dmul, knotAt, Finset.sum_range_succ]

/-- The angular acceleration in the body frame is not the derivative of the angular velocity in the body frame: yaw and
roll increase together from 0 to 1; the method returns zero, although the angular velocity changes. -/
theorem C98_acceleration_counterexample :
    ∃ (P : PoseSpline) (t : ℝ), WellFormed P.spline ∧ Inside P.spline 1 t ∧ P.rot = ypr ∧
      angularAccelerationBodyFrame P t = .ok 0 ∧
      ∀ ω : ℝ → V3, (∀ᶠ x in nhds t, angularVelocityBodyFrame P x = .ok (ω x)) → ¬ HasDerivAt ω 0 t := by
  have h1 : (1 : ℝ) < 3 / 2 := by norm_num
  have h2 : (3 / 2 : ℝ) < 2 := by norm_num
  set P := lineSpline ypr 0 ![0, 0, 0, 1, 0, 1] with hP
  have hw := line_wf ypr 0 ![0, 0, 0, 1, 0, 1]
  have hi := line_inside ypr 0 ![0, 0, 0, 1, 0, 1] h1 h2
  obtain ⟨e0, e1, e2⟩ := line_eval ypr 0 ![0, 0, 0, 1, 0, 1] h1 h2
  rw [← hP] at hw hi e0 e1 e2
  have hα : angularAccelerationBodyFrame P (3 / 2) = .ok 0 := by
    rw [angularAccelerationBodyFrame, e0]; simp only [Out.ok_bind]; rw [e2]
    simp only [Out.ok_bind, Out.pure_eq]
    rw [show tail (0 : V6) = 0 by apply ext3 <;> rfl, Matrix.mulVec_zero]
  refine ⟨P, 3 / 2, hw, hi, rfl, hα, fun ω hω hd => ?_⟩
  obtain ⟨ω', α, g1, g2, g3⟩ := C98_angular_acceleration_partial hw hi e0 e1 (Supported.ypr _)
  have hα0 : α = 0 := by
    have := g2.symm.trans hα
    simpa using this
  have heq : ω =ᶠ[nhds (3 / 2)] ω' := by
    filter_upwards [hω, g1] with x a b
    have := a.symm.trans b
    simpa using this
  have := (heq.hasDerivAt_iff.mp hd).unique g3
  rw [hα0, zero_sub, eq_comm, neg_eq_zero, ← Matrix.mulVec_mulVec] at this
  have hC := SO3_tr ((Supported.ypr 0).so3 (tail (0 + (3 / 2 - 1 : ℝ) • ((![0, 0, 0, 1, 0, 1] : V6) - 0))))
  have h3 := congrArg (fun y => (ypr.toR (tail (0 + (3 / 2 - 1 : ℝ) • ((![0, 0, 0, 1, 0, 1] : V6) - 0)))).mulVec y) this
  simp only [Matrix.mulVec_zero] at h3
  rw [show P.rot = ypr from rfl, Matrix.mulVec_mulVec, hC.2, Matrix.one_mulVec] at h3
  have h4 := congrFun h3 0
  simp [ypr, yprJac, tail, Matrix.mulVec, dotProduct, Fin.sum_univ_three] at h4
  have h5 : 0 < Real.sin (3 / 2 - 1) := Real.sin_pos_of_pos_of_lt_pi (by norm_num) (by linarith [Real.pi_gt_three])
  exact h5.ne' h4

/-- `angularVelocityAndJacobian` does not return what `angularVelocity` returns, but the negative of it: the yaw
increases from 0 to 1. -/
theorem C99_counterexample : ∃ (P : PoseSpline) (t : ℝ) (p : V6), WellFormed P.spline ∧ evalD P.spline t 0 = .ok p ∧
    Supported P.rot (tail p) ∧ ∃ r ω, worldRateAndJacobian P t 1 = .ok r ∧ angularVelocity P t = .ok ω ∧
      r.1 = -ω ∧ r.1 ≠ ω := by
  have h1 : (1 : ℝ) < 3 / 2 := by norm_num
  have h2 : (3 / 2 : ℝ) < 2 := by norm_num
  obtain ⟨e0, e1, _⟩ := line_eval ypr 0 ![0, 0, 0, 1, 0, 0] h1 h2
  obtain ⟨r, hr, _, hv, _⟩ := C99_world_rate_partial (line_wf _ _ _) e0 (Supported.ypr _) 1
  refine ⟨_, _, _, line_wf _ _ _, e0, Supported.ypr _, r, _, hr, by rw [angularVelocity, e0]; simp only [Out.ok_bind]; rw [e1]; rfl, ?_⟩
  simp only [e0, e1, Out.ok_bind, Out.pure_eq, Out.ok.injEq] at hv
  rw [← hv]
  refine ⟨rfl, fun h => ?_⟩
  have := congrFun h 2
  simp [lineSpline, ypr, yprS, yprBuildS, tail, Matrix.mulVec, dotProduct, Fin.sum_univ_three] at this
  norm_num at this

/-- The hypotheses of the theorems of this area are met by a line in position and orientation, for every family. -/
example : WellFormed (lineSpline rotationVector ![0, 0, 0, 1, 2, 3] ![1, 2, 3, 4, 5, 6]).spline ∧
    Inside (lineSpline rotationVector ![0, 0, 0, 1, 2, 3] ![1, 2, 3, 4, 5, 6]).spline 1 (3 / 2) ∧
    ∃ p, evalD (lineSpline rotationVector ![0, 0, 0, 1, 2, 3] ![1, 2, 3, 4, 5, 6]).spline (3 / 2) 0 = .ok p ∧
      Supported rotationVector (tail p) := by
  refine ⟨line_wf _ _ _, line_inside _ _ _ (by norm_num) (by norm_num), _,
    (line_eval _ _ _ (by norm_num) (by norm_num)).1, Supported.rotationVector _ ?_⟩
  unfold norm3
  apply Real.lt_sqrt_of_sq_lt
  simp [tail]
  norm_num

/-- A rigid transformation away from gimbal lock is the one of its curve value, and a pose spline with that curve value
as its value at `t` has that transformation. -/
theorem C98_pose_round_trip_partial (P : PoseSpline) (C : M3) (hC : C ∈ SO3) (r : V3)
    (h : (P.rot = ypr ∨ P.rot = zyx) ∧ |C 2 0| ≠ 1 ∨ P.rot = zxy ∧ |C 2 1| ≠ 1) :
    curveValueToTransformation P (transformationToCurveValue P (rt2Transform C r)) = rt2Transform C r ∧
    ∀ t, evalD P.spline t 0 = .ok (transformationToCurveValue P (rt2Transform C r)) →
      transformation P t = .ok (rt2Transform C r) := by
  have h1 : head (transformationToCurveValue P (rt2Transform C r)) = r := by
    unfold transformationToCurveValue
    simp only [transform2rho_rt]
    apply ext3 <;> simp [head]
  have h2 : tail (transformationToCurveValue P (rt2Transform C r)) = P.rot.ofR C := by
    unfold transformationToCurveValue
    simp only [transform2C_rt]
    apply ext3 <;> simp [tail]
  have h3 : P.rot.toR (P.rot.ofR C) = C := by
    rcases h with ⟨h | h, hg⟩ | ⟨h, hg⟩ <;> rw [h]
    · exact C82_ypr_matrix C hC hg
    · exact C82_zyx_matrix C hC hg
    · exact C82_zxy_matrix C hC hg
  have h4 : curveValueToTransformation P (transformationToCurveValue P (rt2Transform C r)) = rt2Transform C r := by
    unfold curveValueToTransformation
    rw [h1, h2, h3]
  refine ⟨h4, fun t ht => ?_⟩
  rw [transformation, ht]
  simp only [Out.ok_bind, Out.pure_eq]
  rw [h4]

end Kalibr.Pose
