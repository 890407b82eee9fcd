import Verif.Imu.Physics

/-!
# Error terms of inertial measurement units: cases (C105)
-/

namespace Kalibr.Imu

open Kalibr.BSpline hiding Regular
open Kalibr.Kin Kalibr.Exp Kalibr.Pose Matrix

/-! ## A unit on a body that turns -/

/-- A bias spline of order 2 on the knots 0, 1, 2, 3. -/
noncomputable def lineBias : Spline ℝ 3 := ⟨2, [0, 1, 2, 3], [0, 0], initBasis 2 [0, 1, 2, 3]⟩

theorem lineBias_wf : WellFormed lineBias where
  order_ge := by simp [lineBias]
  enough := by simp [lineBias]
  count := by simp [lineBias]
  basis_eq := rfl
  sorted := (nondecreasing_iff _).1 (by unfold Nondecreasing; simp [lineBias]; norm_num)

/-- A unit on a body whose yaw and roll increase together from 0 to 1. -/
noncomputable def turning : Setup where
  pose := lineSpline ypr 0 0
  poseNo := 0
  bias := lineBias
  biasNo := 10
  q_i_b := 0
  q_gyro_i := 1
  r_b := 0
  rx_i := 1
  ry_i := 2
  rz_i := 3
  M := 0
  Ma := 1
  Ix := 2
  Iy := 3
  Iz := 4
  g := 5
  gDirection := false

/-- The values of the design variables of `turning`, with the accelerometer at `r`. -/
noncomputable def turningState (r : V3) : State where
  rot _ := ⟨![0, 0, 0, 1], ![0, 0, 0, 1], 1⟩
  euc i := ⟨if i = 0 then r else 0, 0⟩
  sca _ := ⟨0, 0⟩
  hom _ := ⟨0, 0⟩
  dir _ := ⟨0, 1, 1⟩
  mat _ _ := ⟨1, 1⟩
  vec i _ := ⟨fun j => if i = 1 ∧ (j.val = 3 ∨ j.val = 5) then 1 else 0, 0⟩

theorem turning_spline (r : V3) : turning.spline (turningState r) = lineSpline ypr 0 ![0, 0, 0, 1, 0, 1] := by
  have h0 : (turningState r).vecs 0 6 = 0 := by funext j; simp [State.vecs, turningState]
  have h1 : (turningState r).vecs 1 6 = ![0, 0, 0, 1, 0, 1] := by
    funext j; fin_cases j <;> simp [State.vecs, turningState]
  have : (List.range 2).map (fun i => (turningState r).vecs (0 + i) 6) = [0, ![0, 0, 0, 1, 0, 1]] := by
    simp [List.range_succ, h0, h1]
  show PoseSpline.mk ⟨2, [0, 1, 2, 3], (List.range 2).map (fun i => (turningState r).vecs (0 + i) 6), _⟩ ypr = _
  rw [this]
  rfl

theorem turning_ready (r : V3) : Ready turning (turningState r) (3 / 2) where
  pose := line_wf ypr 0 0
  bias := lineBias_wf
  time := ⟨1, 2, by simp [tMin, turning, lineSpline, knotAt, minimumKnotsRequired, numKnotsRequired, numCoefficientsRequired],
    by simp [tMax, turning, lineSpline, knotAt, minimumKnotsRequired, numKnotsRequired, numCoefficientsRequired],
    by norm_num, by norm_num⟩
  biasTime := ⟨1, 2, by simp [tMin, turning, lineBias, knotAt, minimumKnotsRequired, numKnotsRequired, numCoefficientsRequired],
    by simp [tMax, turning, lineBias, knotAt, minimumKnotsRequired, numKnotsRequired, numCoefficientsRequired],
    by norm_num, by norm_num⟩
  supported p _ := Supported.ypr _
  q_i_b := by
    refine ⟨by simp [Unit4, turning, turningState, Fin.sum_univ_four], ?_⟩
    ext i j; fin_cases i <;> fin_cases j <;> simp [turning, turningState, quat2r]
  q_gyro_i := by
    refine ⟨by simp [Unit4, turning, turningState, Fin.sum_univ_four], ?_⟩
    ext i j; fin_cases i <;> fin_cases j <;> simp [turning, turningState, quat2r]

theorem turning_inside : Inside turning.pose.spline 1 (3 / 2) := line_inside ypr 0 0 (by norm_num) (by norm_num)

/-- The hypotheses of the theorems of this area are met. -/
example : Ready turning (turningState ![1, 2, 3]) (3 / 2) ∧ Inside turning.pose.spline 1 (3 / 2) ∧
    (∃ f : ℕ → (k : Kind) × Expr k, WF f (turning.predicted (3 / 2) 7 .sizeEffectAccelerometer)) ∧
    Ready turning (turningState 0) (3 / 2) ∧ ((turningState 0).euc turning.r_b).p = 0 :=
  ⟨turning_ready _, turning_inside, C105_addresses (turning_ready 0) 7 _, turning_ready _, by simp [turning, turningState]⟩

theorem exists_cross {e : V3} (h : e ≠ 0) : ∃ r : V3, crossProduct e r ≠ 0 := by
  by_contra hn
  push Not at hn
  apply h
  have h1 := hn ![1, 0, 0]
  have h2 := hn ![0, 1, 0]
  simp [cross_apply] at h1 h2
  apply ext3 <;> simp_all

/-- The prediction of an accelerometer away from the origin of the body is not the specific force at its place. -/
theorem C105_accelerometer_counterexample :
    ∃ (S : Setup) (x : State) (t : ℝ) (idx n : ℕ), Ready S x t ∧ Inside S.pose.spline idx t ∧
      ∀ (pos vel : ℝ → V3) (acc : V3) (C : M3) (β : V3),
        (∀ᶠ τ in nhds t, ∃ C r, orientation (S.spline x) τ = .ok C ∧ position (S.spline x) τ = .ok r ∧
          pos τ = r + C.mulVec (x.euc S.r_b).p) →
        (∀ᶠ τ in nhds t, HasDerivAt pos (vel τ) τ) → HasDerivAt vel acc t →
        orientation (S.spline x) t = .ok C → evalD (mapped S.bias S.biasNo x.vecs) t 0 = .ok β →
        val x (S.predicted t n .accelerometer) ≠ (x.rot S.q_i_b).C.mulVec (Cᵀ.mulVec (acc - S.gravity x)) + β := by
  have h1 : (1 : ℝ) < 3 / 2 := by norm_num
  have h2 : (3 / 2 : ℝ) < 2 := by norm_num
  obtain ⟨e0, e1, -⟩ := line_eval ypr 0 ![0, 0, 0, 1, 0, 1] h1 h2
  set p0 : V6 := 0 + (3 / 2 - 1 : ℝ) • ((![0, 0, 0, 1, 0, 1] : V6) - 0) with hp0
  set v0 : V6 := (![0, 0, 0, 1, 0, 1] : V6) - 0 with hv0
  have hC := SO3_tr ((Supported.ypr 0).so3 (tail p0))
  have hE : ((ypr.toR (tail p0))ᵀ * (ypr.jac (tail p0) (tail v0)).dp).mulVec (tail v0) ≠ 0 := by
    intro h
    rw [← Matrix.mulVec_mulVec] at h
    have h3 := congrArg (fun y => (ypr.toR (tail p0)).mulVec y) h
    simp only [Matrix.mulVec_zero] at h3
    rw [Matrix.mulVec_mulVec, hC.2, Matrix.one_mulVec] at h3
    have h4 := congrFun h3 0
    simp [hp0, hv0, ypr, yprJac, tail, Matrix.mulVec, dotProduct, Fin.sum_univ_three] at h4
    have h5 : 0 < Real.sin (3 / 2 - 1) := Real.sin_pos_of_pos_of_lt_pi (by norm_num) (by linarith [Real.pi_gt_three])
    exact h5.ne' h4
  obtain ⟨r, hr⟩ := exists_cross hE
  refine ⟨turning, turningState r, 3 / 2, 1, 0, turning_ready r, turning_inside, ?_⟩
  intro pos vel acc C β k1 k2 k3 k4 k5 k6
  obtain ⟨pos', vel', acc', C', p, v, β', g1, g2, g3, g4, g5, g6, g7, g8⟩ :=
    C105_accelerometer_partial (turning_ready r) 0 turning_inside
  have a1 : pos =ᶠ[nhds (3 / 2)] pos' := by
    filter_upwards [k1, g1] with τ ⟨C1, r1, q1, q2, q3⟩ ⟨C2, r2, q4, q5, q6⟩
    have e3 := q1.symm.trans q4
    have e4 := q2.symm.trans q5
    simp only [Out.ok.injEq] at e3 e4
    rw [q3, q6, e3, e4]
  have a2 : vel =ᶠ[nhds (3 / 2)] vel' := by
    filter_upwards [a1.eventually_nhds, k2, g2] with τ q1 q2 q3
    exact q2.unique (q3.congr_of_eventuallyEq q1)
  have a3 : acc = acc' := k3.unique (g3.congr_of_eventuallyEq a2)
  have a4 : C = C' := by simpa using k4.symm.trans g4
  have a5 : β = β' := by simpa using k5.symm.trans g7
  rw [turning_spline] at g4 g5 g6
  have a6 : p0 = p := by simpa using e0.symm.trans g5
  have a7 : v0 = v := by simpa using e1.symm.trans g6
  have a8 : orientation (lineSpline ypr 0 ![0, 0, 0, 1, 0, 1]) (3 / 2) = .ok (ypr.toR (tail p0)) := by
    rw [orientation, e0]; rfl
  have a9 : ypr.toR (tail p0) = C' := by simpa using a8.symm.trans g4
  have hq : ((turningState r).rot turning.q_i_b).C = 1 := rfl
  have hr' : ((turningState r).euc turning.r_b).p = r := by simp [turning, turningState]
  have hrot : turning.pose.rot = ypr := rfl
  rw [g8, a3, a4, a5, hq, Matrix.one_mulVec, Matrix.one_mulVec, hr', hrot, ← a6, ← a7, ← a9] at k6
  apply hr
  have := add_right_cancel k6
  simpa using this

/-! ## The classes in C++ -/

section Cpp

variable (x : State)

/-- **C105** (classes in C++).  For all expressions given to the four classes whose own Jacobians are right, and
whatever was evaluated in between: the error is the prediction minus the measurement, the Jacobian is the derivative
of the error along every update of the design variables, and it has blocks for the variables that are reported. -/
theorem C105_cpp_jacobian {M Ma : Expr .mat} {Cbw Cib : Expr .rot} {a ω α r rx ry rz β g : Expr .euc} (n ix iy iz : ℕ)
    (hM : Regular x M) (hMa : Regular x Ma) (h1 : Regular x Cbw) (h2 : Regular x Cib) (h3 : Regular x a)
    (h4 : Regular x ω) (h5 : Regular x α) (h6 : Regular x r) (h7 : Regular x rx) (h8 : Regular x ry) (h9 : Regular x rz)
    (h10 : Regular x β) (h11 : Regular x g) (e : Expr .euc)
    (he : e ∈ [accelerometerError n Cbw a β g, accelerometerErrorEccentric n ix iy iz M Cbw a ω α Cib rx ry rz β g,
      gyroscopeError ω β, gyroscopeErrorEccentric n M Ma Cbw a ω α Cib r β g])
    (f : ℕ → (k : Kind) × Expr k) (hw : WF f e) (m : V3) (c₀ c₁ : Cache)
    (hs : Steps f x (euclideanError x e m c₀).2 c₁) (δ : Incr) :
    (euclideanError x e m c₀).1 = val x e - m ∧
    (∀ cs : ℝ → Cache, HasDerivAt (fun s => (euclideanError (along x δ s) e m (cs s)).1)
      (lin (euclideanErrorJac x e c₁).1 δ) 0) ∧
    ∀ d : DV, d ∈ (euclideanErrorJac x e c₁).1.map Sigma.fst ↔ d ∈ dvs e := by
  refine errorTerm_jacobian f hw ?_ m c₀ c₁ hs δ
  simp only [List.mem_cons, List.not_mem_nil, or_false] at he
  rcases he with rfl | rfl | rfl | rfl <;>
    simp only [accelerometerError, accelerometerErrorEccentric, gyroscopeError, gyroscopeErrorEccentric, lever, Regular,
      and_self, *]

/-- **C105** (classes in C++, values). -/
theorem C105_cpp_value {M Ma : Expr .mat} {Cbw Cib : Expr .rot} {a ω α r β g : Expr .euc} (n : ℕ) :
    val x (accelerometerError n Cbw a β g) =
      Matrix.mulVec (val x Cbw) ((val x a : V3) - (val x g : V3)) + (val x β : V3) ∧
    val x (gyroscopeError ω β) = (val x ω : V3) + (val x β : V3) ∧
    val x (gyroscopeErrorEccentric n M Ma Cbw a ω α Cib r β g) =
      Matrix.mulVec (val x M) (Matrix.mulVec (val x Cib) (val x ω) + Matrix.mulVec (val x Ma) (Matrix.mulVec (val x Cib)
        (Matrix.mulVec (val x Cbw) ((val x a : V3) - (val x g : V3)) + crossProduct (val x α) (val x r) +
          crossProduct (val x ω) (crossProduct (val x ω) (val x r))))) + (val x β : V3) := by
  have ec (u w : V3) : crossProduct u w = (crossMx u).mulVec w := (crossMx_mulVec u w).symm
  refine ⟨rfl, rfl, ?_⟩
  simp only [gyroscopeErrorEccentric, Exp.val, ec]
  rfl

end Cpp

/-- The axis `x` of `AccelerometerErrorEccentric` does not measure the specific force at the place of this axis, for a
unit that is turned against the body: the axes are selected in the coordinates of the body, not in those of the unit
(as the expressions in Python do, see `C105_value`). -/
theorem C105_eccentric_counterexample :
    ∃ (x : State) (α rx ry : V3),
      (x.rot 0).C = quat2r (x.rot 0).q ∧ Unit4 (x.rot 0).q ∧ (x.mat 0 []).A = Matrix.diagonal ![1, 0, 0] ∧
      (x.mat 1 []).A = Matrix.diagonal ![0, 1, 0] ∧ (x.mat 2 []).A = Matrix.diagonal ![0, 0, 1] ∧
      (x.mat 3 []).A = 1 ∧ (x.rot 1).C = 1 ∧
      val x (accelerometerErrorEccentric 0 0 1 2 (.matDv 3 []) (.rotDv 1) (.eucConst 0) (.eucConst 0) (.eucConst α)
        (.rotDv 0) (.eucConst rx) (.eucConst ry) (.eucConst 0) (.eucConst 0) (.eucConst 0)) 0 ≠
      (x.rot 0).C.mulVec (crossProduct α rx) 0 := by
  refine ⟨{ turningState 0 with
      rot := fun i => if i = 0 then ⟨fun _ => 1 / 2, 0, quat2r fun _ => 1 / 2⟩ else ⟨![0, 0, 0, 1], 0, 1⟩
      mat := fun i _ => if i = 0 then ⟨Matrix.diagonal ![1, 0, 0], 0⟩ else if i = 1 then
        ⟨Matrix.diagonal ![0, 1, 0], 0⟩ else if i = 2 then ⟨Matrix.diagonal ![0, 0, 1], 0⟩ else ⟨1, 0⟩ },
    ![1, 1, 1], ![1, 0, 0], 0, rfl, ?_, rfl, rfl, rfl, rfl, rfl, ?_⟩
  · simp [Unit4, Fin.sum_univ_four]; norm_num
  · rw [C105_eccentric_value _ _ _ _ _ _ _ _ _ _ _ _ _ _ _ _ rfl rfl rfl]
    simp [Exp.val, cross_apply, quat2r, Matrix.mulVec, dotProduct, Fin.sum_univ_three]
    try norm_num

end Kalibr.Imu
