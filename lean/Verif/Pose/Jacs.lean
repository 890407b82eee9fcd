import Verif.Pose.Spec
import Verif.Expr.Vel
import Verif.Kinematics.EulerTrip
import Verif.Kinematics.SMatrix

/-! # Pose splines: the Jacobians with respect to the coefficients -/

namespace Kalibr.Pose

open Kalibr.Kin Kalibr.BSpline Matrix Finset Kalibr.Exp

/-! ## The orientation families -/

theorem Supported.rates {R : RotKin} {p : V3} (h : Supported R p) (f : ℝ → V3) (r : V3) (t : ℝ) (h0 : f t = p)
    (hf : HasDerivAt f r t) : AngularVelocity (fun s => R.toR (f s)) ((R.S p).mulVec r) t := by
  subst h0
  cases h with
  | ypr => exact C52_ypr_rates f r t hf
  | zyx => exact C52_zyx_rates f r t hf
  | zxy => exact C52_zxy_rates f r t hf
  | rodrigues => exact C52_rodrigues_rates f r t hf
  | rotationVector _ h => exact C52_rotation_vector_rates_partial f r t hf h

theorem Supported.jac {R : RotKin} {p : V3} (h : Supported R p) (f g : ℝ → V3) (dp dr : V3) (t : ℝ) (h0 : f t = p)
    (hf : HasDerivAt f dp t) (hg : HasDerivAt g dr t) : HasDerivAt (fun s => R.omega (f s) (g s))
      ((R.jac p (g t)).dp.mulVec dp + (R.jac p (g t)).dr.mulVec dr) t := by
  subst h0
  cases h with
  | ypr => exact C52_ypr_jacobian f g dp dr t hf hg
  | zyx => exact C52_zyx_jacobian f g dp dr t hf hg
  | zxy => exact C52_zxy_jacobian f g dp dr t hf hg
  | rodrigues => exact C52_rodrigues_jacobian f g dp dr t hf hg
  | rotationVector _ h => exact C52_rotation_vector_jacobian_partial f g dp dr t hf hg h

theorem Supported.so3 {R : RotKin} {p : V3} (h : Supported R p) (q : V3) : R.toR q ∈ SO3 := by
  cases h with
  | ypr => exact (C82_rotations q).1
  | zyx => exact (C82_rotations q).2.1
  | zxy => exact (C82_rotations q).2.2
  | rodrigues => exact (C85_rodrigues_rotation q).1
  | rotationVector => exact (C51_matrix_is_rotation q).1

theorem Supported.omega {R : RotKin} {p : V3} (h : Supported R p) (q r : V3) : R.omega q r = (R.S q).mulVec r := by
  cases h with
  | rodrigues =>
    show erOmega q r = (erS q).mulVec r
    unfold erOmega erS
    simp only
    rw [show 2 * (1 / (1 + sqNorm3 q)) = 2 / (1 + sqNorm3 q) by ring]
  | _ => rfl

/-! ## The spline under increments of its coefficients -/

theorem wf_perturb {P : PoseSpline} (w : WellFormed P.spline) (δ : ℕ → V6) (ε : ℝ) :
    WellFormed (P.perturb δ ε).spline where
  order_ge := w.order_ge
  enough := w.enough
  count := by
    have := w.count
    simpa [PoseSpline.perturb] using this
  basis_eq := w.basis_eq
  sorted := w.sorted

theorem tIndex_perturb (P : PoseSpline) (δ : ℕ → V6) (ε t : ℝ) :
    computeTIndex (P.perturb δ ε).spline t = computeTIndex P.spline t := rfl

/-- What the pose spline needs from the spline below it: the value and the derivatives are linear in the
coefficients that take part, with the same weights that make up the Jacobian. -/
theorem core {P : PoseSpline} (w : WellFormed P.spline) {t : ℝ} {q : ℝ × ℕ} (hq : computeTIndex P.spline t = .ok q) :
    ∃ (W : ℕ → ℕ → ℝ) (v : ℕ → V6), (∀ n, evalD P.spline t n = .ok (v n)) ∧
      (∀ n, evalDAndJacobian P.spline t n = .ok (v n, fun c => W n c • 1, q.2 + 1 - P.spline.order)) ∧
      firstIndex P.spline t = .ok (q.2 + 1 - P.spline.order) ∧
      ∀ n δ ε, evalD (P.perturb δ ε).spline t n =
        .ok (v n + ε • ∑ c ∈ range P.spline.order, W n c • δ (q.2 + 1 - P.spline.order + c)) := by
  obtain ⟨_, h1, h2, h3, _⟩ := computeTIndex_ok w hq
  have hn := w.enough; have hk := w.order_ge; have hc := w.count
  refine ⟨fun n => weights P.spline.order (basisM (knotAt P.spline.knots) P.spline.order q.2)
      (computeU (knotAt P.spline.knots) P.spline.order (normTime P.spline t q.2) q.2 n), _,
    fun n => evalD_of w hq n, ?_, ?_, ?_⟩
  · intro n
    unfold evalDAndJacobian
    rw [locate_of w hq]
    simp only [Out.ok_bind]
    rw [localBi_of w hq]
    simp only [Out.ok_bind, combine]
    rw [if_pos (by omega)]
    rfl
  · unfold firstIndex
    rw [hq]
    simp only [Out.ok_bind]
    rw [if_neg (by omega)]
    rfl
  · intro n δ ε
    rw [evalD_of (wf_perturb w δ ε) ((tIndex_perturb P δ ε t).trans hq)]
    congr 1
    funext e
    simp only [Pi.add_apply, Pi.smul_apply, Finset.sum_apply, smul_eq_mul, mul_sum]
    rw [← sum_add_distrib]
    apply sum_congr rfl
    intro c hcm
    have hlt : q.2 + 1 - P.spline.order + c < P.spline.coeffs.length := by
      have : c < P.spline.order := Finset.mem_range.mp hcm
      omega
    have e1 : (P.perturb δ ε).spline.coeffs.getD (q.2 + 1 - P.spline.order + c) 0 =
        P.spline.coeffs.getD (q.2 + 1 - P.spline.order + c) 0 + ε • δ (q.2 + 1 - P.spline.order + c) := by
      simp [PoseSpline.perturb, List.getD_eq_getElem?_getD, List.getElem?_mapIdx, List.getElem?_eq_getElem hlt]
    show ((P.perturb δ ε).spline.coeffs.getD (q.2 + 1 - P.spline.order + c) 0) e * _ = _
    rw [e1]
    simp only [Pi.add_apply, Pi.smul_apply, smul_eq_mul]
    show _ * weights P.spline.order (basisM (knotAt P.spline.knots) P.spline.order q.2)
      (computeU (knotAt P.spline.knots) P.spline.order (normTime P.spline t q.2) q.2 n) c = _
    ring

/-! ## Linear algebra -/

theorem head_add (a b : V6) : head (a + b) = head a + head b := by apply ext3 <;> simp [head]
theorem tail_add (a b : V6) : tail (a + b) = tail a + tail b := by apply ext3 <;> simp [tail]
theorem head_smul (c : ℝ) (b : V6) : head (c • b) = c • head b := by apply ext3 <;> simp [head]
theorem tail_smul (c : ℝ) (b : V6) : tail (c • b) = c • tail b := by apply ext3 <;> simp [tail]

theorem line {n : ℕ} (a d : Fin n → ℝ) : HasDerivAt (fun ε : ℝ => a + ε • d) d 0 := by
  rw [hasDerivAt_pi]
  intro i
  simpa using (((hasDerivAt_id (0 : ℝ)).mul_const (d i)).const_add (a i))

theorem head_line (a d : V6) : HasDerivAt (fun ε : ℝ => head (a + ε • d)) (head d) 0 := by
  simp only [head_add, head_smul]; exact line _ _

theorem tail_line (a d : V6) : HasDerivAt (fun ε : ℝ => tail (a + ε • d)) (tail d) 0 := by
  simp only [tail_add, tail_smul]; exact line _ _

theorem total_mul {m k : ℕ} (A : Matrix (Fin m) (Fin 6) ℝ) (W : ℕ → ℝ) (i : ℕ) (δ : ℕ → V6) :
    total k (fun c => A * (W c • (1 : Matrix (Fin 6) (Fin 6) ℝ))) i δ =
      A.mulVec (∑ c ∈ range k, W c • δ (i + c)) := by
  unfold total
  rw [Matrix.mulVec_sum]
  apply sum_congr rfl
  intro c _
  show (A * W c • (1 : Matrix (Fin 6) (Fin 6) ℝ)).mulVec (δ (i + c)) = _
  rw [Matrix.mul_smul, Matrix.mul_one, Matrix.smul_mulVec, Matrix.mulVec_smul]

theorem total_add {m k : ℕ} (J K : Blocks m) (i : ℕ) (δ : ℕ → V6) :
    total k (fun c => J c + K c) i δ = total k J i δ + total k K i δ := by
  unfold total
  rw [← sum_add_distrib]
  apply sum_congr rfl
  intro c _
  rw [Matrix.add_mulVec]

theorem total_congr {m k : ℕ} {J K : Blocks m} (h : ∀ c, J c = K c) (i : ℕ) (δ : ℕ → V6) :
    total k J i δ = total k K i δ := by
  rw [show J = K from funext h]

/-- Selecting rows of a matrix. -/
def headSel : Matrix (Fin 3) (Fin 6) ℝ := !![1, 0, 0, 0, 0, 0; 0, 1, 0, 0, 0, 0; 0, 0, 1, 0, 0, 0]

/-- Selecting rows of a matrix. -/
def tailSel : Matrix (Fin 3) (Fin 6) ℝ := !![0, 0, 0, 1, 0, 0; 0, 0, 0, 0, 1, 0; 0, 0, 0, 0, 0, 1]

theorem headRows_eq (J : Matrix (Fin 6) (Fin 6) ℝ) : headRows J = headSel * J := by
  ext i j
  fin_cases i <;> simp [headRows, headSel, Matrix.mul_apply, Fin.sum_univ_six]

theorem tailRows_eq (J : Matrix (Fin 6) (Fin 6) ℝ) : tailRows J = tailSel * J := by
  ext i j
  fin_cases i <;> simp [tailRows, tailSel, Matrix.mul_apply, Fin.sum_univ_six]

theorem headSel_mulVec (v : V6) : headSel.mulVec v = head v := by
  apply ext3 <;> simp [headSel, head, Matrix.mulVec, dotProduct, Fin.sum_univ_six]

theorem tailSel_mulVec (v : V6) : tailSel.mulVec v = tail v := by
  apply ext3 <;> simp [tailSel, tail, Matrix.mulVec, dotProduct, Fin.sum_univ_six]

theorem orientationBlock_mulVec (S : M3) (v : V6) : (orientationBlock S).mulVec v = S.mulVec (tail v) := by
  apply ext3 <;> simp [orientationBlock, tail, Matrix.mulVec, dotProduct, Fin.sum_univ_six, Fin.sum_univ_three]

theorem curve_moves' {P : PoseSpline} {p : V6} (hs : Supported P.rot (tail p)) {g : ℝ → V6} {d : V6} (h0 : g 0 = p)
    (hg : HasDerivAt (fun ε => head (g ε)) (head d) 0) (hg' : HasDerivAt (fun ε => tail (g ε)) (tail d) 0) :
    TMoves (fun ε => curveValueToTransformation P (g ε)) ((curveValueJacobian P p).mulVec d) := by
  unfold TMoves curveValueToTransformation
  rw [twist_parts]
  have hω := hs.rates (fun ε : ℝ => tail (g ε)) (tail d) 0 (by simp [h0]) hg'
  have e : (curveValueJacobian P p).mulVec d = _ := blocks6_mulVec _ _ _ _
  rw [e]
  refine ⟨by convert hω using 1; apply ext3 <;> rfl, ?_⟩
  rw [vderiv_iff]
  refine hg.congr_deriv ?_
  simp only [h0]
  rw [← Matrix.mulVec_mulVec, Matrix.neg_mulVec, Matrix.one_mulVec]
  show _ = ![_, _, _] + (crossMx (head p)).mulVec ![((P.rot.S (tail p)).mulVec (tail d)) 0,
    ((P.rot.S (tail p)).mulVec (tail d)) 1, ((P.rot.S (tail p)).mulVec (tail d)) 2]
  rw [show (![((P.rot.S (tail p)).mulVec (tail d)) 0, ((P.rot.S (tail p)).mulVec (tail d)) 1,
    ((P.rot.S (tail p)).mulVec (tail d)) 2] : V3) = (P.rot.S (tail p)).mulVec (tail d) by apply ext3 <;> rfl]
  show _ = ![(head d + -(crossMx (head p)).mulVec ((P.rot.S (tail p)).mulVec (tail d))) 0,
    (head d + -(crossMx (head p)).mulVec ((P.rot.S (tail p)).mulVec (tail d))) 1,
    (head d + -(crossMx (head p)).mulVec ((P.rot.S (tail p)).mulVec (tail d))) 2] + _
  apply ext3 <;> simp

theorem curve_moves {P : PoseSpline} {p : V6} (hs : Supported P.rot (tail p)) (d : V6) :
    TMoves (fun ε => curveValueToTransformation P (p + ε • d)) ((curveValueJacobian P p).mulVec d) :=
  curve_moves' hs (by simp) (head_line p d) (tail_line p d)

theorem invertInPlace_eq {C : M3} (h : C ∈ SO3) (t : V3) : invertInPlace (rt2Transform C t) = (rt2Transform C t)⁻¹ := by
  rw [rt_inv h, invertInPlace, transform2C_rt, transform2rho_rt]

/-! ## The methods with Jacobians -/

theorem index_of_eval {P : PoseSpline} (w : WellFormed P.spline) {t : ℝ} {n : ℕ} {p : V6}
    (hp : evalD P.spline t n = .ok p) : ∃ q, computeTIndex P.spline t = .ok q := by
  cases h : computeTIndex P.spline t with
  | ok q => exact ⟨q, rfl⟩
  | raise => rw [evalD_raise h] at hp; cases hp
  | ub => exact absurd h (computeTIndex_ne_ub w t)

variable {P : PoseSpline} (w : WellFormed P.spline) {t : ℝ} {p : V6} (hp : evalD P.spline t 0 = .ok p)
include w hp

/-- `evalDAndJacobian`: every derivative of the curve. -/
theorem C99_curve (n : ℕ) : ∃ r, evalDAndJacobian P.spline t n = .ok r ∧
    firstIndex P.spline t = .ok r.2.2 ∧ RightJacobian (fun Q => evalD Q.spline t n) VMoves P r := by
  obtain ⟨q, hq⟩ := index_of_eval w hp
  obtain ⟨W, v, h1, h2, h3, h4⟩ := core w hq
  refine ⟨_, h2 n, h3, h1 n, fun δ => ⟨_, h4 n δ, by simp, ?_⟩⟩
  rw [show total P.spline.order _ _ δ = ∑ c ∈ range P.spline.order, W n c • δ (q.2 + 1 - P.spline.order + c) by
    have := total_mul (k := P.spline.order) (1 : Matrix (Fin 6) (Fin 6) ℝ) (W n) (q.2 + 1 - P.spline.order) δ
    simpa using this]
  exact line _ _

/-- `transformationAndJacobian`. -/
theorem C99_transformation (hs : Supported P.rot (tail p)) : ∃ r, transformationAndJacobian P t = .ok r ∧
    firstIndex P.spline t = .ok r.2.2 ∧ RightJacobian (transformation · t) TMoves P r := by
  obtain ⟨q, hq⟩ := index_of_eval w hp
  obtain ⟨W, v, h1, h2, h3, h4⟩ := core w hq
  have e : v 0 = p := by have := (h1 0).symm.trans hp; simpa using this
  refine ⟨_, by rw [transformationAndJacobian, h2]; rfl, by exact h3, by simp only [transformation, h1]; rfl, fun δ =>
    ⟨fun ε => curveValueToTransformation P (v 0 + ε • ∑ c ∈ range P.spline.order, W 0 c • δ (q.2 + 1 - P.spline.order + c)),
      fun ε => by simp only [transformation, h4]; rfl, by simp, ?_⟩⟩
  rw [e, total_mul]
  exact curve_moves hs _

/-- `inverseTransformationAndJacobian`. -/
theorem C99_inverse_transformation (hs : Supported P.rot (tail p)) :
    ∃ r, inverseTransformationAndJacobian P t = .ok r ∧ firstIndex P.spline t = .ok r.2.2 ∧
      RightJacobian (inverseTransformation · t) TMoves P r := by
  obtain ⟨q, hq⟩ := index_of_eval w hp
  obtain ⟨W, v, h1, h2, h3, h4⟩ := core w hq
  have e : v 0 = p := by have := (h1 0).symm.trans hp; simpa using this
  refine ⟨_, by rw [inverseTransformationAndJacobian, h2]; simp only [Out.ok_bind]; rw [h3]; rfl, by exact h3,
    by simp only [inverseTransformation, h1]; rfl, fun δ =>
    ⟨fun ε => invertInPlace (curveValueToTransformation P (v 0 + ε • ∑ c ∈ range P.spline.order, W 0 c • δ (q.2 + 1 - P.spline.order + c))),
      fun ε => by simp only [inverseTransformation, h4]; rfl, by simp, ?_⟩⟩
  rw [e, total_mul]
  have h0 : Rigid (curveValueToTransformation P (p + (0 : ℝ) • ∑ c ∈ range P.spline.order,
      W 0 c • δ (q.2 + 1 - P.spline.order + c))) := ⟨_, hs.so3 _, _, rfl⟩
  have := trInv_moves h0 (curve_moves hs (∑ c ∈ range P.spline.order, W 0 c • δ (q.2 + 1 - P.spline.order + c)))
  have inv (u : V6) : invertInPlace (curveValueToTransformation P u) = (curveValueToTransformation P u)⁻¹ :=
    invertInPlace_eq (hs.so3 _) _
  unfold TMoves
  convert this using 1
  · funext ε; exact inv _
  · rw [inv, Matrix.mulVec_mulVec]; simp

/-- `orientationAndJacobian`. -/
theorem C99_orientation (hs : Supported P.rot (tail p)) : ∃ r, orientationAndJacobian P t = .ok r ∧
    firstIndex P.spline t = .ok r.2.2 ∧ RightJacobian (orientation · t) RMoves P r := by
  obtain ⟨q, hq⟩ := index_of_eval w hp
  obtain ⟨W, v, h1, h2, h3, h4⟩ := core w hq
  have e : v 0 = p := by have := (h1 0).symm.trans hp; simpa using this
  refine ⟨_, by rw [orientationAndJacobian, h2]; rfl, by exact h3, by simp only [orientation, h1]; rfl, fun δ =>
    ⟨fun ε => P.rot.toR (tail (v 0 + ε • ∑ c ∈ range P.spline.order, W 0 c • δ (q.2 + 1 - P.spline.order + c))),
      fun ε => by simp only [orientation, h4]; rfl, by simp, ?_⟩⟩
  rw [e, total_mul, orientationBlock_mulVec]
  exact hs.rates (fun ε : ℝ => tail (p + ε • _)) _ 0 (by simp) (tail_line p _)

/-- `inverseOrientationAndJacobian`. -/
theorem C99_inverse_orientation (hs : Supported P.rot (tail p)) : ∃ r, inverseOrientationAndJacobian P t = .ok r ∧
    firstIndex P.spline t = .ok r.2.2 ∧ RightJacobian (inverseOrientation · t) RMoves P r := by
  obtain ⟨q, hq⟩ := index_of_eval w hp
  obtain ⟨W, v, h1, h2, h3, h4⟩ := core w hq
  have e : v 0 = p := by have := (h1 0).symm.trans hp; simpa using this
  refine ⟨_, by rw [inverseOrientationAndJacobian, h2]; rfl, by exact h3, by simp only [inverseOrientation, h1]; rfl, fun δ =>
    ⟨fun ε => (P.rot.toR (tail (v 0 + ε • ∑ c ∈ range P.spline.order, W 0 c • δ (q.2 + 1 - P.spline.order + c))))ᵀ,
      fun ε => by simp only [inverseOrientation, h4]; rfl, by simp, ?_⟩⟩
  rw [e, total_mul, ← Matrix.mulVec_mulVec, orientationBlock_mulVec]
  have := rotInv_moves (hs.so3 _) (hs.rates (fun ε : ℝ => tail (p + ε • ∑ c ∈ range P.spline.order,
    W 0 c • δ (q.2 + 1 - P.spline.order + c))) _ 0 (by simp) (tail_line p _))
  simp only [zero_smul, add_zero] at this
  exact this

/-- `transformVectorAndJacobian`. -/
theorem C99_transform_vector (hs : Supported P.rot (tail p)) (y : V4) : ∃ r, transformVectorAndJacobian P t y = .ok r ∧
    firstIndex P.spline t = .ok r.2.2 ∧ RightJacobian (fun Q => do let T ← transformation Q t; return T.mulVec y) VMoves P r := by
  obtain ⟨q, hq⟩ := index_of_eval w hp
  obtain ⟨W, v, h1, h2, h3, h4⟩ := core w hq
  have e : v 0 = p := by have := (h1 0).symm.trans hp; simpa using this
  refine ⟨_, by rw [transformVectorAndJacobian, transformationAndJacobian, h2]; rfl, by exact h3, by
    simp only [transformation, h1]; rfl, fun δ =>
    ⟨fun ε => (curveValueToTransformation P (v 0 + ε • ∑ c ∈ range P.spline.order, W 0 c • δ (q.2 + 1 - P.spline.order + c))).mulVec y,
      fun ε => by simp only [transformation, h4]; rfl, by simp, ?_⟩⟩
  simp only [← Matrix.mul_assoc]
  rw [e, total_mul, ← Matrix.mulVec_mulVec]
  have := trHom_moves (p := fun _ => y) (v := 0) (curve_moves hs (∑ c ∈ range P.spline.order,
    W 0 c • δ (q.2 + 1 - P.spline.order + c))) (hasDerivAt_const _ _)
  unfold VMoves
  convert this using 1
  simp

/-- `linearAccelerationAndJacobian`, for every orientation family and all parameters. -/
theorem C99_linear_acceleration : ∃ r, linearAccelerationAndJacobian P t = .ok r ∧
    firstIndex P.spline t = .ok r.2.2 ∧ RightJacobian (linearAcceleration · t) VMoves P r := by
  obtain ⟨q, hq⟩ := index_of_eval w hp
  obtain ⟨W, v, h1, h2, h3, h4⟩ := core w hq
  refine ⟨_, by rw [linearAccelerationAndJacobian, h2]; rfl, by exact h3, by simp only [linearAcceleration, h1]; rfl, fun δ =>
    ⟨fun ε => head (v 2 + ε • ∑ c ∈ range P.spline.order, W 2 c • δ (q.2 + 1 - P.spline.order + c)),
      fun ε => by simp only [linearAcceleration, h4]; rfl, by simp, ?_⟩⟩
  simp only [headRows_eq]
  rw [total_mul, headSel_mulVec]
  exact head_line _ _

omit w hp in
/-- The derivative behind the angular rates in the body frame. -/
theorem body_moves (hs : Supported P.rot (tail p)) (a d e : V6) :
    HasDerivAt (fun ε : ℝ => (-(P.rot.toR (tail (p + ε • d)))ᵀ * P.rot.S (tail (p + ε • d))).mulVec (tail (a + ε • e)))
      ((-(P.rot.toR (tail p))ᵀ * (P.rot.jac (tail p) (tail a)).dp).mulVec (tail d) +
        (-(P.rot.toR (tail p))ᵀ * (P.rot.jac (tail p) (tail a)).dr).mulVec (tail e) +
        (crossMx ((-(P.rot.toR (tail p))ᵀ).mulVec (P.rot.omega (tail p) (tail a)))).mulVec
          ((-(P.rot.toR (tail p))ᵀ).mulVec ((P.rot.S (tail p)).mulVec (tail d)))) 0 := by
  have h1 := rotInv_moves (hs.so3 _) (hs.rates (fun ε : ℝ => tail (p + ε • d)) _ 0 (by simp) (tail_line p d))
  have h2 := hs.jac (fun ε : ℝ => tail (p + ε • d)) (fun ε : ℝ => tail (a + ε • e)) _ _ 0 (by simp)
    (tail_line p d) (tail_line a e)
  have h3 := (rotEuc_moves h1 h2).fun_neg
  simp only [hs.omega] at h3
  simp only [zero_smul, add_zero] at h3
  have e1 : (fun ε : ℝ => (-(P.rot.toR (tail (p + ε • d)))ᵀ * P.rot.S (tail (p + ε • d))).mulVec (tail (a + ε • e))) =
      fun ε : ℝ => -((P.rot.toR (tail (p + ε • d)))ᵀ.mulVec
        ((P.rot.S (tail (p + ε • d))).mulVec (tail (a + ε • e)))) := by
    funext ε
    rw [← Matrix.mulVec_mulVec, Matrix.neg_mulVec]
  rw [e1]
  refine h3.congr_deriv ?_
  rw [hs.omega]
  simp only [← Matrix.mulVec_mulVec, Matrix.neg_mulVec, crossMx_neg, Matrix.mulVec_add, Matrix.mulVec_neg]
  abel

theorem body_rate (hs : Supported P.rot (tail p)) (n : ℕ) : ∃ r, bodyRateAndJacobian P t n = .ok r ∧
    firstIndex P.spline t = .ok r.2.2 ∧ RightJacobian (fun Q => do
      let r ← evalD Q.spline t 0
      let v ← evalD Q.spline t n
      return (-(Q.rot.toR (tail r))ᵀ * Q.rot.S (tail r)).mulVec (tail v)) VMoves P r := by
  obtain ⟨q, hq⟩ := index_of_eval w hp
  obtain ⟨W, v, h1, h2, h3, h4⟩ := core w hq
  have e : v 0 = p := by have := (h1 0).symm.trans hp; simpa using this
  refine ⟨_, by rw [bodyRateAndJacobian, h2]; simp only [Out.ok_bind]; rw [h2, inverseOrientationAndJacobian, h2]; rfl,
    by exact h3, ?_, fun δ => ⟨fun ε => (-(P.rot.toR (tail (v 0 + ε • ∑ c ∈ range P.spline.order, W 0 c • δ (q.2 + 1 - P.spline.order + c))))ᵀ *
      P.rot.S (tail (v 0 + ε • ∑ c ∈ range P.spline.order, W 0 c • δ (q.2 + 1 - P.spline.order + c)))).mulVec
      (tail (v n + ε • ∑ c ∈ range P.spline.order, W n c • δ (q.2 + 1 - P.spline.order + c))),
      fun ε => by simp only [h4]; rfl, ?_, ?_⟩⟩
  · simp only [h1, Out.ok_bind, Out.pure_eq, hs.omega, Matrix.mulVec_mulVec]
  · simp only [hs.omega, Matrix.mulVec_mulVec, zero_smul, add_zero]
  · have := body_moves hs (v n) (∑ c ∈ range P.spline.order, W 0 c • δ (q.2 + 1 - P.spline.order + c))
      (∑ c ∈ range P.spline.order, W n c • δ (q.2 + 1 - P.spline.order + c))
    unfold VMoves
    rw [e]
    refine this.congr_deriv ?_
    simp only [tailRows_eq, ← Matrix.mul_assoc]
    rw [total_add, total_add, total_mul, total_mul, total_mul]
    simp only [← Matrix.mulVec_mulVec, tailSel_mulVec, orientationBlock_mulVec]

/-- `angularVelocityBodyFrameAndJacobian`. -/
theorem C99_angular_velocity_body_frame (hs : Supported P.rot (tail p)) : ∃ r, bodyRateAndJacobian P t 1 = .ok r ∧
    firstIndex P.spline t = .ok r.2.2 ∧ RightJacobian (angularVelocityBodyFrame · t) VMoves P r := body_rate w hp hs 1

/-- `angularAccelerationBodyFrameAndJacobian`. -/
theorem C99_angular_acceleration_body_frame (hs : Supported P.rot (tail p)) :
    ∃ r, bodyRateAndJacobian P t 2 = .ok r ∧ firstIndex P.spline t = .ok r.2.2 ∧
      RightJacobian (angularAccelerationBodyFrame · t) VMoves P r :=
  body_rate w hp hs 2

/-- `angularVelocityAndJacobian` (`n = 1`) and `angularAccelerationAndJacobian` (`n = 2`): the value and the Jacobian
are those of the *negative* of the rate that `angularVelocity` defines.  Full statement: those of the rate itself. -/
theorem C99_world_rate_partial (hs : Supported P.rot (tail p)) (n : ℕ) : ∃ r, worldRateAndJacobian P t n = .ok r ∧
    firstIndex P.spline t = .ok r.2.2 ∧ RightJacobian (fun Q => do
      let r ← evalD Q.spline t 0
      let v ← evalD Q.spline t n
      return -((-Q.rot.S (tail r)).mulVec (tail v))) VMoves P r := by
  obtain ⟨q, hq⟩ := index_of_eval w hp
  obtain ⟨W, v, h1, h2, h3, h4⟩ := core w hq
  have e : v 0 = p := by have := (h1 0).symm.trans hp; simpa using this
  refine ⟨_, by rw [worldRateAndJacobian, h2]; simp only [Out.ok_bind]; rw [h2]; rfl,
    by exact h3, ?_, fun δ => ⟨fun ε => -((-P.rot.S (tail (v 0 + ε • ∑ c ∈ range P.spline.order, W 0 c • δ (q.2 + 1 - P.spline.order + c)))).mulVec
      (tail (v n + ε • ∑ c ∈ range P.spline.order, W n c • δ (q.2 + 1 - P.spline.order + c)))),
      fun ε => by simp only [h4]; rfl, ?_, ?_⟩⟩
  · simp only [h1, Out.ok_bind, Out.pure_eq, hs.omega, Matrix.neg_mulVec, neg_neg]
  · simp only [hs.omega, Matrix.neg_mulVec, neg_neg, zero_smul, add_zero]
  · have := hs.jac (fun ε : ℝ => tail (p + ε • ∑ c ∈ range P.spline.order, W 0 c • δ (q.2 + 1 - P.spline.order + c)))
      (fun ε : ℝ => tail (v n + ε • ∑ c ∈ range P.spline.order, W n c • δ (q.2 + 1 - P.spline.order + c))) _ _ 0
      (by simp) (tail_line _ _) (tail_line _ _)
    unfold VMoves
    rw [e]
    simp only [Matrix.neg_mulVec, neg_neg]
    simp only [hs.omega] at this
    refine this.congr_deriv ?_
    simp only [tailRows_eq, ← Matrix.mul_assoc]
    rw [total_add, total_mul, total_mul]
    simp only [← Matrix.mulVec_mulVec, tailSel_mulVec, zero_smul, add_zero]

end Kalibr.Pose
