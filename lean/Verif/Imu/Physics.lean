import Verif.Imu.Props

/-!
# Error terms of inertial measurement units: what is measured (C105)
-/

namespace Kalibr.Imu

open Kalibr.BSpline hiding Regular
open Kalibr.Kin Kalibr.Exp Kalibr.Pose Matrix

variable {S : Setup} {x : State} {t : ℝ}

/-! ## Which measurements, which variables -/

/-- **C105** (times).  The measurements that get an error term are those whose time, with the offset, is strictly inside
the valid interval of the pose spline; their order and number of occurrences is kept. -/
theorem C105_times {P : Spline ℝ 6} (w : WellFormed P) (off : ℝ) (stamps : List ℝ) :
    ∃ ts lo hi, termTimes P off stamps = .ok ts ∧ tMin P = .ok lo ∧ tMax P = .ok hi ∧
      ts.Sublist (stamps.map (· + off)) ∧ (∀ u, u ∈ ts ↔ (∃ s ∈ stamps, u = s + off) ∧ lo < u ∧ u < hi) ∧
      ∀ u, lo < u → u < hi → ts.count u = (stamps.map (· + off)).count u := by
  have hk := w.order_ge; have hn := w.enough
  have h1 : tMin P = .ok (knotAt P.knots (P.order - 1)) := by
    rw [tMin, if_neg (by simp only [minimumKnotsRequired, numKnotsRequired, numCoefficientsRequired]; omega)]
  have h2 : tMax P = .ok (knotAt P.knots (P.knots.length - P.order)) := by
    rw [tMax, if_neg (by simp only [minimumKnotsRequired, numKnotsRequired, numCoefficientsRequired]; omega)]
  refine ⟨_, _, _, by rw [termTimes, h1, h2]; rfl, h1, h2, List.filter_sublist, fun u => ?_, fun u h3 h4 => ?_⟩
  · simp only [List.mem_filter, List.mem_map, decide_eq_true_eq]
    constructor
    · rintro ⟨⟨s, hs, rfl⟩, h3, h4⟩; exact ⟨⟨s, hs, rfl⟩, h3, h4⟩
    · rintro ⟨⟨s, hs, rfl⟩, h3, h4⟩; exact ⟨⟨s, hs, rfl⟩, h3, h4⟩
  · rw [List.count_filter]
    simpa using ⟨h3, h4⟩

/-- **C105** (variables).  An accelerometer measurement depends on the orientation and the place of the unit, the
gravity, and the coefficients of the pose spline and of the bias spline that are active at its time; a gyroscope
measurement on the same without the place and the gravity. -/
theorem C105_variables (h : Ready S x t) (n : ℕ) :
    ∃ ps bs, activeVariables S.pose t = .ok ps ∧ activeCoefficients S.bias t = .ok bs ∧
      ps.length = S.pose.spline.order ∧ bs.length = S.bias.order ∧
      (∀ d, d ∈ dvs (S.predicted t n .accelerometer) ↔ d = .rot S.q_i_b ∨ d = .euc S.r_b ∨
        d = (if S.gDirection then .dir S.g else .euc S.g) ∨ (∃ i ∈ ps, d = .vec (S.poseNo + i) 6) ∨
        ∃ i ∈ bs, d = .vec (S.biasNo + i) 3) ∧
      (∀ d, d ∈ dvs (S.predicted t n .gyroscope) ↔ d = .rot S.q_i_b ∨ (∃ i ∈ ps, d = .vec (S.poseNo + i) 6) ∨
        ∃ i ∈ bs, d = .vec (S.biasNo + i) 3) ∧
      ∀ d, d ∈ dvs (S.predicted t n .scaledGyroscope) ↔ d = .mat S.M lowerCells ∨ d = .mat S.Ma allCells ∨
        d = .rot S.q_gyro_i ∨ d ∈ dvs (S.predicted t n .accelerometer) := by
  obtain ⟨q, hq⟩ := h.index
  obtain ⟨r, hr⟩ := h.biasIndex
  have e1 := activeVariables_of h.pose hq
  have e2 := activeCoefficients_of h.bias hr
  have pl {k : Kind} (d : Val k) value node : (poseLeaf S.pose S.poseNo t d value node).vars =
      ((List.range S.pose.spline.order).map (q.2 + 1 - S.pose.spline.order + ·)).map fun i => DV.vec (S.poseNo + i) 6 := by
    show (orElse (activeVariables S.pose t) []).map _ = _
    rw [e1]; rfl
  have bl : (pointLeaf S.bias S.biasNo t 0).vars =
      ((List.range S.bias.order).map (r.2 + 1 - S.bias.order + ·)).map fun i => DV.vec (S.biasNo + i) 3 := by
    show (orElse (activeCoefficients S.bias t) []).map _ = _
    rw [e2]; rfl
  refine ⟨_, _, e1, e2, by simp, by simp, ?_, ?_, ?_⟩
  · intro d
    simp only [Setup.predicted, Setup.accelerometer, Setup.a_b, Setup.C_b_w, Setup.C_i_b, Setup.rb, Setup.a_w, Setup.w_b,
      Setup.w_dot_b, Setup.b_i, dvs, orientationLeaf, accelerationLeaf, angularVelocityLeaf, angularAccelerationLeaf,
      pl, bl, Setup.g_w, List.mem_append, List.mem_map, List.mem_singleton]
    cases S.gDirection <;> simp [dvs] <;> grind
  · intro d
    simp only [Setup.predicted, Setup.gyroscope, Setup.C_i_b, Setup.w_b, Setup.b_i, dvs, angularVelocityLeaf, pl, bl,
      List.mem_append, List.mem_map, List.mem_singleton]
    grind
  · intro d
    have l1 : lowerCells.length ≠ 0 := by decide
    have l2 : allCells.length ≠ 0 := by decide
    simp only [Setup.predicted, Setup.accelerometer, Setup.scaledGyroscope, Setup.a_b, Setup.C_b_w, dvs, List.mem_append,
      List.mem_singleton, if_pos l1, if_pos l2]
    grind

/-! ## The models of a unit -/

/-- **C105** (models).  With the initial values of their additional parameters the larger models predict what the
smaller ones predict: scale and misalignment the identity, no influence of the acceleration on the gyroscope, the
gyroscope aligned with the unit, no size. -/
theorem C105_models (h : Ready S x t) (n : ℕ) (hM : (x.mat S.M lowerCells).A = 1) (hA : (x.mat S.Ma allCells).A = 0)
    (hG : (x.rot S.q_gyro_i).C = 1) (hIx : (x.mat S.Ix []).A = Matrix.diagonal ![1, 0, 0])
    (hIy : (x.mat S.Iy []).A = Matrix.diagonal ![0, 1, 0]) (hIz : (x.mat S.Iz []).A = Matrix.diagonal ![0, 0, 1])
    (hx : (x.euc S.rx_i).p = 0) (hy : (x.euc S.ry_i).p = 0) (hz : (x.euc S.rz_i).p = 0) :
    val x (S.predicted t n .scaledAccelerometer) = val x (S.predicted t n .accelerometer) ∧
    val x (S.predicted t n .scaledGyroscope) = val x (S.predicted t n .gyroscope) ∧
    val x (S.predicted t n .sizeEffectAccelerometer) = val x (S.predicted t n .accelerometer) := by
  obtain ⟨C, a, ω, α, β, -, -, -, -, -, -, h1, h2, h3, h4, h5⟩ := C105_value h n
  rw [h1, h2, h3, h4, h5 hIx hIy hIz, hM, hA, hG, hx, hy, hz]
  simp only [Matrix.one_mulVec, Matrix.zero_mulVec, Matrix.mulVec_zero, add_zero, true_and]
  congr 1
  apply ext3 <;> rfl

/-- The selections of the axes: in the coordinates of the unit (Python), and in the coordinates of the body (C++). -/
theorem C105_eccentric_value (x : State) (n ix iy iz : ℕ) (M : Expr .mat) (C_b_w C_i_b : Expr .rot)
    (a_w ω α rx ry rz bias g_w : Expr .euc) (hIx : (x.mat ix []).A = Matrix.diagonal ![1, 0, 0])
    (hIy : (x.mat iy []).A = Matrix.diagonal ![0, 1, 0]) (hIz : (x.mat iz []).A = Matrix.diagonal ![0, 0, 1]) :
    let f : Expr .euc → V3 := fun r => Matrix.mulVec (val x C_b_w) (val x a_w - val x g_w) +
      crossProduct (val x α) (val x r) + crossProduct (val x ω) (crossProduct (val x ω) (val x r))
    val x (accelerometerErrorEccentric n ix iy iz M C_b_w a_w ω α C_i_b rx ry rz bias g_w) =
      Matrix.mulVec (val x M) (Matrix.mulVec (val x C_i_b) ![f rx 0, f ry 1, f rz 2]) + val x bias := by
  intro f
  have ec (u w : V3) : crossProduct u w = (crossMx u).mulVec w := (crossMx_mulVec u w).symm
  simp only [accelerometerErrorEccentric, lever, Exp.val, f, ec, hIx, hIy, hIz]
  funext j
  refine congrArg (fun u : V3 => (Matrix.mulVec (val x M) (Matrix.mulVec (val x C_i_b) u)) j + (val x bias : V3) j) ?_
  simp only [Matrix.mulVec_diagonal]
  apply ext3 <;> simp [add_assoc] <;> rfl

theorem inside_spline {idx : ℕ} (h : Inside S.pose.spline idx t) (x : State) : Inside (S.spline x).spline idx t :=
  ⟨h.low, h.high, h.left, h.right, h.zone⟩

/-! ## What a unit on the moving body measures -/

theorem supported_near {P : PoseSpline} (w : WellFormed P.spline) {idx : ℕ} (h : Inside P.spline idx t)
    (hs : Supported P.rot (tail (curveV P 0 t))) : ∀ᶠ τ in nhds t, Supported P.rot (tail (curveV P 0 τ)) := by
  obtain ⟨s, R⟩ := P
  dsimp only at hs ⊢
  cases hs with
  | ypr => exact Filter.Eventually.of_forall fun _ => .ypr _
  | zyx => exact Filter.Eventually.of_forall fun _ => .zyx _
  | zxy => exact Filter.Eventually.of_forall fun _ => .zxy _
  | rodrigues => exact Filter.Eventually.of_forall fun _ => .rodrigues _
  | rotationVector _ hn =>
    have hc : ContinuousAt (fun τ => norm3 (tail (curveV ⟨s, rotationVector⟩ 0 τ))) t := by
      have hd := (tail_deriv (curveV_deriv w h 0)).continuousAt
      have hc3 : Continuous (norm3 : V3 → ℝ) := by
        unfold norm3
        fun_prop
      exact hc3.continuousAt.comp hd
    filter_upwards [hc.eventually (lt_mem_nhds hn)] with τ hτ
    exact .rotationVector _ hτ

/-- A product of a moving matrix with a moving vector. -/
theorem mulVec_deriv {C : ℝ → M3} {u : ℝ → V3} {L : V3 → V3} {d : V3}
    (hC : ∀ y : V3, HasDerivAt (fun τ => (C τ).mulVec y) (L y) t) (hu : HasDerivAt u d t) :
    HasDerivAt (fun τ => (C τ).mulVec (u τ)) (L (u t) + (C t).mulVec d) t := by
  have hu' := hasDerivAt_pi.mp hu
  have hC' (i j : Fin 3) : HasDerivAt (fun τ => C τ i j) (L (Pi.single j 1) i) t := by
    have := hasDerivAt_pi.mp (hC (Pi.single j 1)) i
    simpa using this
  have hL (i : Fin 3) (y : V3) : L y i = ∑ j, L (Pi.single j 1) i * y j := by
    have h1 := hasDerivAt_pi.mp (hC y) i
    have h2 : HasDerivAt (fun τ => ∑ j, C τ i j * y j) (∑ j, L (Pi.single j 1) i * y j) t :=
      HasDerivAt.fun_sum fun j _ => (hC' i j).mul_const _
    exact h1.unique h2
  rw [hasDerivAt_pi]
  intro i
  have : HasDerivAt (fun τ => ∑ j, C τ i j * u τ j) (∑ j, (L (Pi.single j 1) i * u t j + C t i j * d j)) t :=
    HasDerivAt.fun_sum fun j _ => (hC' i j).fun_mul (hu' j)
  refine this.congr_deriv ?_
  rw [Finset.sum_add_distrib, Pi.add_apply, hL]
  rfl

theorem cross_deriv {u : ℝ → V3} {d : V3} (hu : HasDerivAt u d t) (r : V3) :
    HasDerivAt (fun τ => crossProduct (u τ) r) (crossProduct d r) t := by
  have h := hasDerivAt_pi.mp hu
  rw [hasDerivAt_pi]
  intro i
  simp only [cross_apply]
  fin_cases i
  · exact ((h 1).mul_const _).fun_sub ((h 2).mul_const _)
  · exact ((h 2).mul_const _).fun_sub ((h 0).mul_const _)
  · exact ((h 0).mul_const _).fun_sub ((h 1).mul_const _)

/-- **C105** (gyroscope).  Strictly inside a segment the prediction is the angular velocity of the body, turned into the
coordinates of the unit, plus the bias: every vector `y` fixed in the body moves with `d/dt (C y) = C (ω × y)`. -/
theorem C105_gyroscope (h : Ready S x t) (n : ℕ) {idx : ℕ} (hi : Inside S.pose.spline idx t) :
    ∃ (C : ℝ → M3) (ω β : V3), (∀ᶠ τ in nhds t, orientation (S.spline x) τ = .ok (C τ)) ∧
      evalD (mapped S.bias S.biasNo x.vecs) t 0 = .ok β ∧
      val x (S.predicted t n .gyroscope) = (x.rot S.q_i_b).C.mulVec ω + β ∧
      ∀ y : V3, HasDerivAt (fun τ => (C τ).mulVec y) ((C t).mulVec (crossProduct ω y)) t := by
  obtain ⟨_, a, ω, α, β, -, -, h1, -, h2, -, -, h3, -⟩ := C105_value h n
  obtain ⟨p, hp⟩ := h.eval
  obtain ⟨C, _, ω', h4, -, h5, h6⟩ := C98_angular_rates (P := S.spline x) (mapped_wf h.pose S.poseNo x.vecs) (inside_spline hi x) hp
    (h.supported p hp)
  have e : ω' = ω := by
    have := h5.symm.trans h1
    simpa using this
  exact ⟨C, ω, β, h4, h2, h3, fun y => by rw [← e]; exact (h6 y).2⟩

/-- **C105** (accelerometer, what holds).  The accelerometer is at the place `r + C r_b` of the moving body; its
velocity and its acceleration are the derivatives of this.  Strictly inside a segment the prediction is the specific
force there, `Cᵀ (acceleration - gravity)`, turned into the coordinates of the unit, plus the bias, plus the error
`e × r_b` turned into the coordinates of the unit, where `e` is the term `Cᵀ (∂(S ṗ)/∂p) ṗ` that the angular
acceleration of the pose spline leaves out.  Full statement: without this error. -/
theorem C105_accelerometer_partial (h : Ready S x t) (n : ℕ) {idx : ℕ} (hi : Inside S.pose.spline idx t) :
    ∃ (pos vel : ℝ → V3) (acc : V3) (C : M3) (p v : V6) (β : V3),
      (∀ᶠ τ in nhds t, ∃ C r, orientation (S.spline x) τ = .ok C ∧ position (S.spline x) τ = .ok r ∧
        pos τ = r + C.mulVec (x.euc S.r_b).p) ∧
      (∀ᶠ τ in nhds t, HasDerivAt pos (vel τ) τ) ∧ HasDerivAt vel acc t ∧
      orientation (S.spline x) t = .ok C ∧ evalD (S.spline x).spline t 0 = .ok p ∧
      evalD (S.spline x).spline t 1 = .ok v ∧ evalD (mapped S.bias S.biasNo x.vecs) t 0 = .ok β ∧
      val x (S.predicted t n .accelerometer) = (x.rot S.q_i_b).C.mulVec (Cᵀ.mulVec (acc - S.gravity x) +
        crossProduct ((Cᵀ * (S.pose.rot.jac (tail p) (tail v)).dp).mulVec (tail v)) (x.euc S.r_b).p) + β := by
  obtain ⟨C, a, ω, α, β, g1, g2, g3, g4, g5, gC, h1, -⟩ := C105_value h n
  have w : WellFormed (S.spline x).spline := mapped_wf h.pose S.poseNo x.vecs
  have hi' : Inside (S.spline x).spline idx t := inside_spline hi x
  have e0 := eval_curveV w hi' 0
  have e1 := eval_curveV w hi' 1
  have hs := h.supported _ e0
  obtain ⟨ω', α', k1, k2, k3⟩ := C98_angular_acceleration_partial w hi' e0 e1 hs
  have eα : α' = α := by
    have := k2.symm.trans g4
    simpa using this
  set r := (x.euc S.r_b).p
  let Cf : ℝ → M3 := fun τ => (S.spline x).rot.toR (tail (curveV (S.spline x) 0 τ))
  have rate : ∀ᶠ τ in nhds t, ∀ y : V3, HasDerivAt (fun σ => (Cf σ).mulVec y) ((Cf τ).mulVec (crossProduct (ω' τ) y)) τ := by
    filter_upwards [inside_eventually hi', k1, supported_near w hi' hs] with τ hτ k1 hsτ y
    obtain ⟨C', _, ωb, q1, -, q3, q4⟩ := C98_angular_rates w hτ (eval_curveV w hτ 0) hsτ
    have q5 : ωb = ω' τ := by
      have := q3.symm.trans k1
      simpa using this
    have q6 : Cf =ᶠ[nhds τ] C' := by
      filter_upwards [q1, inside_eventually hτ] with σ q1 hσ
      have : orientation (S.spline x) σ = .ok (Cf σ) := by rw [orientation, eval_curveV w hσ]; rfl
      have := this.symm.trans q1
      simpa using this
    have q7 : (fun σ => (Cf σ).mulVec y) =ᶠ[nhds τ] fun σ => (C' σ).mulVec y := by
      filter_upwards [q6] with σ hσ
      rw [hσ]
    rw [q6.eq_of_nhds, ← q5]
    exact (q4 y).2.congr_of_eventuallyEq q7
  have hCt : Cf t = C := by
    have : orientation (S.spline x) t = .ok (Cf t) := by rw [orientation, e0]; rfl
    have := this.symm.trans g1
    simpa using this
  have hωt : ω' t = ω := by
    have := k1.self_of_nhds.symm.trans g3
    simpa using this
  have hacc : HasDerivAt (fun τ => head (curveV (S.spline x) 1 τ) + (Cf τ).mulVec (crossProduct (ω' τ) r)) _ t :=
    (head_deriv (curveV_deriv w hi' 1)).add (mulVec_deriv rate.self_of_nhds (cross_deriv k3 r))
  refine ⟨fun τ => head (curveV (S.spline x) 0 τ) + (Cf τ).mulVec r,
    fun τ => head (curveV (S.spline x) 1 τ) + (Cf τ).mulVec (crossProduct (ω' τ) r), _, C, _, _, β, ?_, ?_, hacc, g1, e0, e1, g5, ?_⟩
  · filter_upwards [inside_eventually hi'] with τ hτ
    exact ⟨Cf τ, head (curveV (S.spline x) 0 τ), by rw [orientation, eval_curveV w hτ]; rfl,
      by rw [position, eval_curveV w hτ]; rfl, rfl⟩
  · filter_upwards [inside_eventually hi', rate] with τ hτ hr
    exact (head_deriv (curveV_deriv w hτ 0)).add (hr r)
  · have ea : head (curveV (S.spline x) 2 t) = a := by
      have : linearAcceleration (S.spline x) t = .ok (head (curveV (S.spline x) 2 t)) := by
        rw [linearAcceleration, eval_curveV w hi' 2]; rfl
      have := this.symm.trans g2
      simpa using this
    rw [h1]
    congr 2
    have hRt : (S.spline x).rot.toR (tail (curveV (S.spline x) 0 t)) = C := hCt
    have hR : S.pose.rot = (S.spline x).rot := rfl
    rw [hCt, hωt, eα, ea, hRt, hR]
    generalize (Cᵀ * ((S.spline x).rot.jac (tail (curveV (S.spline x) 0 t)) (tail (curveV (S.spline x) 1 t))).dp).mulVec
      (tail (curveV (S.spline x) 1 t)) = e
    have hT : Cᵀ * C = 1 := (SO3_tr gC).1
    simp only [Matrix.mulVec_sub, Matrix.mulVec_add, Matrix.mulVec_mulVec, hT, Matrix.one_mulVec, LinearMap.map_sub₂]
    abel

/-- **C105** (accelerometer at the origin of the body, as for the reference unit): the prediction is the specific force
there. -/
theorem C105_reference_accelerometer (h : Ready S x t) (n : ℕ) {idx : ℕ} (hi : Inside S.pose.spline idx t)
    (hr : (x.euc S.r_b).p = 0) :
    ∃ (pos vel : ℝ → V3) (acc : V3) (C : M3) (β : V3),
      (∀ᶠ τ in nhds t, position (S.spline x) τ = .ok (pos τ)) ∧
      (∀ᶠ τ in nhds t, HasDerivAt pos (vel τ) τ) ∧ HasDerivAt vel acc t ∧
      orientation (S.spline x) t = .ok C ∧ evalD (mapped S.bias S.biasNo x.vecs) t 0 = .ok β ∧
      val x (S.predicted t n .accelerometer) = (x.rot S.q_i_b).C.mulVec (Cᵀ.mulVec (acc - S.gravity x)) + β := by
  obtain ⟨pos, vel, acc, C, p, v, β, h1, h2, h3, h4, -, -, h5, h6⟩ := C105_accelerometer_partial h n hi
  refine ⟨pos, vel, acc, C, β, ?_, h2, h3, h4, h5, ?_⟩
  · filter_upwards [h1] with τ ⟨C, r, _, hp, e⟩
    rw [e, hr, Matrix.mulVec_zero, add_zero]
    exact hp
  · rw [h6, hr, LinearMap.map_zero, add_zero]

end Kalibr.Imu
