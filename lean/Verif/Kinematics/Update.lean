import Verif.Kinematics.Transform
import Verif.Kinematics.AxisAngle

/-!
# The exponential map of quaternions and the quaternion update (C80, C81, C84)
-/

namespace Kalibr.Kin

open Matrix Real

theorem eps4_pos : 0 < eps4 := by unfold eps4; norm_num

/-! ## C81: exponential and logarithm -/

/-- The exponential of a vector that is not shorter than the threshold: the unit quaternion of the turn by the length
of the vector. -/
theorem exp_eq {a : V3} (h : eps4 ≤ norm3 a) : axisAngle2quat a =
    ![sin (norm3 a / 2) * ((1 / norm3 a) • a) 0, sin (norm3 a / 2) * ((1 / norm3 a) • a) 1,
      sin (norm3 a / 2) * ((1 / norm3 a) • a) 2, cos (norm3 a / 2)] := by
  have hp : 0 < norm3 a := lt_of_lt_of_le eps4_pos h
  unfold axisAngle2quat
  simp only
  rw [if_neg (by linarith), show norm3 a * (1 / 2) = norm3 a / 2 by ring]
  apply ext4 <;> simp <;> ring

theorem exp_zero : axisAngle2quat 0 = quatIdentity := by
  have : norm3 0 = 0 := by simp [norm3]
  apply ext4 <;> simp [axisAngle2quat, quatIdentity, this]

/-- The quaternion of a rotation vector is a unit quaternion and its matrix is the turn by the length of the vector
about its direction, for the zero vector and all vectors from the threshold `2^-13` on. -/
theorem C81_exponential_partial (a : V3) (h : a = 0 ∨ eps4 ≤ norm3 a) :
    Unit4 (axisAngle2quat a) ∧ ∀ v, (quat2r (axisAngle2quat a)).mulVec v = turn (norm3 a) ((1 / norm3 a) • a) v := by
  rcases h with rfl | h
  · rw [exp_zero, quat2r_identity]
    have : norm3 0 = 0 := by simp [norm3]
    refine ⟨by simp [Unit4, quatIdentity], fun v => ?_⟩
    simp [turn, this]
  · have hu := unit_of_norm (lt_of_lt_of_le eps4_pos h)
    rw [exp_eq h, ← axisAngleMx_eq_quat _ _ hu]
    refine ⟨?_, axisAngleMx_turn _ _⟩
    have h1 := sin_sq_add_cos_sq (norm3 a / 2)
    unfold Unit3 at hu
    simp only [Unit4, Matrix.cons_val]
    linear_combination sin (norm3 a / 2) ^ 2 * hu + h1

/-- Below the threshold the series has a wrong sign: the quaternion is longer than one for every such vector but
zero, and by less than a 24th of the fourth power of the angle, which is less than `2^-56`. -/
theorem C81_small_angle_counterexample (a : V3) (h0 : a ≠ 0) (h : norm3 a < eps4) :
    1 < norm4 (axisAngle2quat a) ^ 2 ∧ norm4 (axisAngle2quat a) ^ 2 < 1 + norm3 a ^ 4 / 24 := by
  have hp : 0 < norm3 a := by
    rcases (norm3_nonneg a).lt_or_eq with h1 | h1
    · exact h1
    · exfalso
      have := norm3_sq a
      rw [← h1] at this
      apply h0
      apply ext3 <;> simp <;> nlinarith [sq_nonneg (a 0), sq_nonneg (a 1), sq_nonneg (a 2)]
  have hs := norm3_sq a
  have key : norm4 (axisAngle2quat a) ^ 2 =
      (norm3 a * (1 / 2 + norm3 a * norm3 a * (1 / 48))) ^ 2 + cos (norm3 a * (1 / 2)) ^ 2 := by
    unfold norm4 axisAngle2quat
    rw [Real.sq_sqrt (by positivity)]
    simp only [if_pos h, Matrix.cons_val]
    linear_combination -(1 / 2 + norm3 a * norm3 a * (1 / 48)) ^ 2 * hs
  rw [key]
  have h8 : norm3 a < 1 / 8192 := h
  generalize norm3 a = θ at *
  have h1 := sin_sq_add_cos_sq (θ * (1 / 2))
  have h2 := Real.sin_lt (x := θ * (1 / 2)) (by linarith)
  have h3 := Real.sin_gt_sub_cube (x := θ * (1 / 2)) (by linarith)
  have h4 := Real.sin_pos_of_pos_of_lt_pi (x := θ * (1 / 2)) (by linarith) (by linarith [pi_gt_three])
  generalize sin (θ * (1 / 2)) = s at *
  generalize cos (θ * (1 / 2)) = c at *
  have h3' : θ / 2 - θ ^ 3 / 48 < s := by linarith [show (θ * (1 / 2)) ^ 3 / 6 = θ ^ 3 / 48 by ring]
  constructor
  · have : s ^ 2 < (θ * (1 / 2 + θ * θ * (1 / 48))) ^ 2 := by
      apply pow_lt_pow_left₀ _ h4.le (by norm_num)
      nlinarith [mul_pos hp (mul_pos hp hp)]
    linarith
  · have hpos : 0 < θ / 2 - θ ^ 3 / 48 := by
      have : θ ^ 2 < 1 := by nlinarith
      nlinarith
    have : (θ / 2 - θ ^ 3 / 48) ^ 2 < s ^ 2 := pow_lt_pow_left₀ h3' hpos.le (by norm_num)
    have h6 : (θ * (1 / 2 + θ * θ * (1 / 48))) ^ 2 = (θ / 2 - θ ^ 3 / 48) ^ 2 + θ ^ 4 / 24 := by ring
    linarith

/-- The logarithm of the unit quaternion with half angle `φ` and axis `e`. -/
theorem log_eq {φ : ℝ} {e : V3} (he : Unit3 e) (h0 : 0 < φ) (h1 : φ < π) (hs : eps4 ≤ sin φ) :
    quat2AxisAngle ![sin φ * e 0, sin φ * e 1, sin φ * e 2, cos φ] = (2 * φ) • e := by
  have hsp : 0 < sin φ := sin_pos_of_pos_of_lt_pi h0 h1
  have hq : qeps ![sin φ * e 0, sin φ * e 1, sin φ * e 2, cos φ] = sin φ • e := by
    apply ext3 <;> simp [qeps]
  have hn : norm3 (sin φ • e) = sin φ := by rw [norm3_unit he, abs_of_pos hsp]
  unfold quat2AxisAngle
  simp only [hq, hn, Matrix.cons_val]
  have main : (if |cos φ| < sin φ then arccos (cos φ) / sin φ else if 0 < cos φ then arcSinXOverX (sin φ)
      else (π - arcsin (sin φ)) / sin φ) = φ / sin φ := by
    split_ifs with c1 c2
    · rw [arccos_cos h0.le h1.le]
    · have hφ : φ < π / 2 := by
        by_contra hc
        exact absurd (cos_nonpos_of_pi_div_two_le_of_le (x := φ) (by linarith) (by linarith)) (by linarith)
      unfold arcSinXOverX
      rw [if_neg (by rw [abs_of_pos hsp]; linarith), arcsin_sin (by linarith) (by linarith)]
    · have hφ : π / 2 ≤ φ := by
        by_contra hc
        exact absurd (cos_pos_of_mem_Ioo (x := φ) ⟨by linarith, by linarith⟩) (by linarith)
      rw [← sin_pi_sub, arcsin_sin (by linarith) (by linarith), sin_pi_sub]
      ring
  rw [main, smul_smul]
  congr 1
  field_simp

/-- The logarithm undoes the exponential, for rotation vectors shorter than a full turn whose half angle has a sine of at
least the threshold. -/
theorem C81_vector_round_trip_partial (a : V3) (h : eps4 ≤ norm3 a) (h1 : norm3 a < 2 * π)
    (h2 : eps4 ≤ sin (norm3 a / 2)) : quat2AxisAngle (axisAngle2quat a) = a := by
  have hp : 0 < norm3 a := lt_of_lt_of_le eps4_pos h
  rw [exp_eq h, log_eq (unit_of_norm hp) (by linarith) (by linarith) h2, smul_smul]
  rw [show 2 * (norm3 a / 2) * (1 / norm3 a) = 1 by field_simp, one_smul]

/-- Every unit quaternion is given by a half angle and an axis. -/
theorem polar {q : V4} (hq : Unit4 q) (h : 0 < norm3 (qeps q)) :
    ∃ φ e, Unit3 e ∧ 0 < φ ∧ φ < π ∧ sin φ = norm3 (qeps q) ∧
      q = ![sin φ * e 0, sin φ * e 1, sin φ * e 2, cos φ] := by
  have hs := norm3_sq (qeps q)
  simp only [qeps, Matrix.cons_val] at hs
  unfold Unit4 at hq
  have h3 : q 3 ^ 2 < 1 := by
    have : 0 < norm3 (qeps q) ^ 2 := by positivity
    change norm3 (qeps q) ^ 2 = _ at hs
    linarith
  have hlt : -1 < q 3 ∧ q 3 < 1 := by constructor <;> nlinarith
  have hsin : sin (arccos (q 3)) = norm3 (qeps q) := by
    rw [sin_arccos]
    unfold norm3
    congr 1
    simp only [qeps, Matrix.cons_val]
    linarith
  refine ⟨arccos (q 3), (1 / norm3 (qeps q)) • qeps q, unit_of_norm h, arccos_pos.mpr hlt.2, ?_, hsin, ?_⟩
  · rw [arccos]; linarith [neg_pi_div_two_lt_arcsin.mpr hlt.1]
  · rw [hsin, cos_arccos hlt.1.le hlt.2.le]
    generalize norm3 (qeps q) = n at *
    apply ext4 <;> simp [qeps] <;> field_simp

/-- The exponential undoes the logarithm, for every unit quaternion whose vector part is at least as long as the
threshold. -/
theorem C81_quaternion_round_trip_partial (q : V4) (hq : Unit4 q) (h : eps4 ≤ norm3 (qeps q)) :
    axisAngle2quat (quat2AxisAngle q) = q ∧ norm3 (quat2AxisAngle q) < 2 * π := by
  obtain ⟨φ, e, he, h0, h1, hs, rfl⟩ := polar hq (lt_of_lt_of_le eps4_pos h)
  rw [log_eq he h0 h1 (by rw [hs]; exact h)]
  have hn : norm3 ((2 * φ) • e) = 2 * φ := by rw [norm3_unit he, abs_of_pos (by linarith)]
  have hle : eps4 ≤ 2 * φ := by
    have := Real.sin_lt h0
    rw [hs] at this
    linarith
  rw [exp_eq (by rw [hn]; exact hle), hn]
  refine ⟨?_, by linarith⟩
  rw [show 2 * φ / 2 = φ by ring]
  have h2 : (1 / (2 * φ)) • (2 * φ) • e = e := by
    rw [smul_smul, show 1 / (2 * φ) * (2 * φ) = 1 by field_simp, one_smul]
  rw [h2]

/-- For shorter vector parts (and positive scalar part) the logarithm is too short: the series drops its second
term, since its coefficient is an integer quotient. -/
theorem C81_logarithm_counterexample (a : V3) (h : eps4 ≤ norm3 a) (h1 : norm3 a < π / 2)
    (h2 : sin (norm3 a / 2) < eps4) :
    norm3 (quat2AxisAngle (axisAngle2quat a)) = 2 * sin (norm3 a / 2) ∧ 2 * sin (norm3 a / 2) < norm3 a := by
  have hp : 0 < norm3 a := lt_of_lt_of_le eps4_pos h
  have he := unit_of_norm hp
  rw [exp_eq h]
  generalize (1 / norm3 a) • a = e at *
  have hsp : 0 < sin (norm3 a / 2) := sin_pos_of_pos_of_lt_pi (by linarith) (by linarith)
  have hlt := Real.sin_lt (x := norm3 a / 2) (by linarith)
  have hq : qeps ![sin (norm3 a / 2) * e 0, sin (norm3 a / 2) * e 1, sin (norm3 a / 2) * e 2,
      cos (norm3 a / 2)] = sin (norm3 a / 2) • e := by
    apply ext3 <;> simp [qeps]
  have hn : norm3 (sin (norm3 a / 2) • e) = sin (norm3 a / 2) := by rw [norm3_unit he, abs_of_pos hsp]
  have hcp : 0 < cos (norm3 a / 2) := cos_pos_of_mem_Ioo ⟨by linarith [pi_pos], by linarith [pi_pos]⟩
  have hsc := sin_sq_add_cos_sq (norm3 a / 2)
  have hle : ¬ |cos (norm3 a / 2)| < sin (norm3 a / 2) := by
    rw [abs_of_pos hcp]
    unfold eps4 at h2
    intro hc
    nlinarith
  refine ⟨?_, by linarith⟩
  unfold quat2AxisAngle
  simp only [hq, hn, Matrix.cons_val]
  rw [if_neg hle, if_pos hcp, arcSinXOverX, if_pos (by rw [abs_of_pos hsp]; exact h2)]
  have h6 : ((1 / 6 : ℕ) : ℝ) = 0 := by norm_num
  rw [h6, mul_zero, add_zero, mul_one, smul_smul, norm3_unit he, abs_of_pos (by linarith)]

example : eps4 ≤ norm3 ![1, 0, 0] ∧ norm3 ![1, 0, 0] < 2 * π ∧ eps4 ≤ sin (norm3 ![1, 0, 0] / 2) := by
  have h : norm3 ![1, 0, 0] = 1 := by simp [norm3]
  have := Real.sin_gt_sub_cube (x := 1 / 2) (by norm_num)
  rw [h]
  unfold eps4
  refine ⟨by norm_num, by linarith [pi_gt_three], by norm_num at this ⊢; linarith⟩

example : eps4 ≤ norm3 ![eps4, 0, 0] ∧ norm3 ![eps4, 0, 0] < π / 2 ∧ sin (norm3 ![eps4, 0, 0] / 2) < eps4 := by
  have h : norm3 ![eps4, 0, 0] = eps4 := by simp [norm3, eps4_pos.le]
  have h2 := Real.sin_lt (x := eps4 / 2) (by linarith [eps4_pos])
  rw [h]
  refine ⟨le_refl _, ?_, by linarith [eps4_pos]⟩
  unfold eps4
  linarith [pi_gt_three]

example : Unit4 ![3 / 5, 0, 0, 4 / 5] ∧ eps4 ≤ norm3 (qeps ![3 / 5, 0, 0, 4 / 5]) := by
  refine ⟨by simp [Unit4]; norm_num, ?_⟩
  have : norm3 (qeps ![3 / 5, 0, 0, 4 / 5]) = 3 / 5 := by
    simp [norm3, qeps]; exact Real.sqrt_sq (by norm_num)
  rw [this]; unfold eps4; norm_num

/-! ## C80: the update of a quaternion -/

/-- The optimised update is the product with the quaternion of the rotation vector. -/
theorem C80_update_is_product (q : V4) (dq : V3) :
    toH (updateQuat q dq) = toH q * toH (axisAngle2quat dq) := by
  rw [← C48_product_is_quaternion_product]
  congr 1
  apply ext4 <;> simp [updateQuat, qplus] <;> ring

/-- An update by a vector that is zero or not shorter than the threshold keeps unit quaternions, turns the rotation by the
length of the vector about its direction, and an update by zero changes nothing. -/
theorem C80_update_partial (q : V4) (hq : Unit4 q) (dq : V3) (h : dq = 0 ∨ eps4 ≤ norm3 dq) :
    Unit4 (updateQuat q dq) ∧
    (∀ v, (quat2r (updateQuat q dq)).mulVec v = turn (norm3 dq) ((1 / norm3 dq) • dq) ((quat2r q).mulVec v)) ∧
    updateQuat q 0 = q := by
  have hu (d : V3) : updateQuat q d = qplus (axisAngle2quat d) q := by
    apply ext4 <;> simp [updateQuat, qplus] <;> ring
  obtain ⟨h1, h2⟩ := C81_exponential_partial dq h
  refine ⟨?_, ?_, ?_⟩
  · rw [hu]; exact (C48_unit_closed _ _ h1 hq).1
  · intro v
    rw [hu, C48_matrix_of_product, ← Matrix.mulVec_mulVec, h2]
  · rw [hu, exp_zero]; exact (C48_monoid q q q).2.2

/-- The increment of a transformation: its translation moves by the first three numbers, its rotation is updated by the
last three. -/
theorem C80_transformation_increment_partial (A : Trafo) (hA : A.Valid) (d : Fin 6 → ℝ)
    (h : (![d 3, d 4, d 5] : V3) = 0 ∨ eps4 ≤ norm3 ![d 3, d 4, d 5]) :
    (A.oplus d).Valid ∧ (A.oplus d).t = ![A.t 0 + d 0, A.t 1 + d 1, A.t 2 + d 2] ∧
    ∀ v, (A.oplus d).C.mulVec v = turn (norm3 ![d 3, d 4, d 5]) ((1 / norm3 ![d 3, d 4, d 5]) • ![d 3, d 4, d 5])
      (A.C.mulVec v) := by
  obtain ⟨h1, h2, -⟩ := C80_update_partial A.q hA ![d 3, d 4, d 5] h
  refine ⟨h1, ?_, h2⟩
  apply ext3 <;> simp [Trafo.oplus, Matrix.vecHead, Matrix.vecTail]

/-- Every rotation is reached by one update, so the three numbers of the update are a full parametrisation: the update
by the logarithm of the difference leads from `q` to `p`, if the rotation between them is not too small. -/
theorem C80_reaches_partial (q p : V4) (hq : Unit4 q) (hp : Unit4 p)
    (h : eps4 ≤ norm3 (qeps (qplus p (quatInv q)))) :
    updateQuat q (quat2AxisAngle (qplus p (quatInv q))) = p := by
  have hu (d : V3) : updateQuat q d = qplus (axisAngle2quat d) q := by
    apply ext4 <;> simp [updateQuat, qplus] <;> ring
  have hi : Unit4 (quatInv q) := by
    unfold Unit4 at *; simp [quatInv]; linarith
  rw [hu, (C81_quaternion_round_trip_partial _ (C48_unit_closed _ _ hp hi).1 h).1, (C48_monoid _ _ _).1,
    (C48_inverse q hq).2, (C48_monoid p p p).2.1]

example : Unit4 quatIdentity ∧ Unit4 ![3 / 5, 0, 0, 4 / 5] ∧
    eps4 ≤ norm3 (qeps (qplus ![3 / 5, 0, 0, 4 / 5] (quatInv quatIdentity))) := by
  refine ⟨by simp [Unit4, quatIdentity], by simp [Unit4]; norm_num, ?_⟩
  have : norm3 (qeps (qplus ![3 / 5, 0, 0, 4 / 5] (quatInv quatIdentity))) = 3 / 5 := by
    simp [norm3, qeps, qplus, quatInv, quatIdentity]; exact Real.sqrt_sq (by norm_num)
  rw [this]; unfold eps4; norm_num

/-! ## C84: interpolation -/

/-- The sign that brings the second quaternion to the same side of the sphere as the first. -/
theorem flip_dot (q p : V4) :
    norm4 (q + p) ^ 2 < norm4 (q - p) ^ 2 ↔ q 0 * p 0 + q 1 * p 1 + q 2 * p 2 + q 3 * p 3 < 0 := by
  unfold norm4
  rw [Real.sq_sqrt (by positivity), Real.sq_sqrt (by positivity)]
  simp only [Pi.add_apply, Pi.sub_apply]
  constructor <;> intro h <;> nlinarith

theorem quat2r_neg (q : V4) : quat2r (-q) = quat2r q := by
  ext i j; fin_cases i <;> fin_cases j <;> simp [quat2r]

theorem slerp_core (q p : V4) (hq : Unit4 q) (hp : Unit4 p) (hd : 0 ≤ q 0 * p 0 + q 1 * p 1 + q 2 * p 2 + q 3 * p 3)
    (hbig : eps4 ≤ norm3 (qeps (qplus (quatInv q) p))) :
    ∃ θ e, Unit3 e ∧ 0 < θ ∧ θ ≤ π ∧ sin (θ / 2) = norm3 (qeps (qplus (quatInv q) p)) ∧
      quat2r p = quat2r q * axisAngleMx θ e ∧
      ∀ s, 0 < s → s < 1 → eps4 ≤ s * θ →
        Unit4 (qplus q (axisAngle2quat (s • quat2AxisAngle (qplus (quatInv q) p)))) ∧
        quat2r (qplus q (axisAngle2quat (s • quat2AxisAngle (qplus (quatInv q) p)))) =
          quat2r q * axisAngleMx (s * θ) e := by
  have hi : Unit4 (quatInv q) := by unfold Unit4 at *; simp [quatInv]; linarith
  have hr := (C48_unit_closed _ _ hi hp).1
  obtain ⟨φ, e, he, h0, h1, hs, hpol⟩ := polar hr (lt_of_lt_of_le eps4_pos hbig)
  have hrel : qplus q (qplus (quatInv q) p) = p := by
    rw [← (C48_monoid _ _ _).1, (C48_inverse q hq).1, (C48_monoid p p p).2.2]
  have hcos : 0 ≤ cos φ := by
    have := congrFun hpol 3
    simp [qplus, quatInv] at this
    linarith
  have hφ : φ ≤ π / 2 := by
    by_contra hc
    exact absurd (cos_neg_of_pi_div_two_lt_of_lt (x := φ) (by linarith) (by linarith)) (by linarith)
  refine ⟨2 * φ, e, he, by linarith, by linarith, by rw [show 2 * φ / 2 = φ by ring, hs], ?_, ?_⟩
  · rw [axisAngleMx_eq_quat _ _ he, show 2 * φ / 2 = φ by ring, ← hpol, ← C48_matrix_of_product, hrel]
  · intro s s0 s1 hsθ
    have hlog : quat2AxisAngle (qplus (quatInv q) p) = (2 * φ) • e := by
      rw [hpol]
      exact log_eq he h0 h1 (by rw [hs]; exact hbig)
    have hn : norm3 ((s * (2 * φ)) • e) = s * (2 * φ) := by
      rw [norm3_unit he, abs_of_pos (by positivity)]
    have hpos : 0 < s * (2 * φ) := by positivity
    have hex : axisAngle2quat (s • quat2AxisAngle (qplus (quatInv q) p)) =
        ![sin (s * (2 * φ) / 2) * e 0, sin (s * (2 * φ) / 2) * e 1, sin (s * (2 * φ) / 2) * e 2,
          cos (s * (2 * φ) / 2)] := by
      rw [hlog, smul_smul, exp_eq (by rw [hn]; exact hsθ), hn, smul_smul,
        show 1 / (s * (2 * φ)) * (s * (2 * φ)) = 1 by field_simp, one_smul]
    refine ⟨?_, ?_⟩
    · apply (C48_unit_closed _ _ hq _).1
      exact (C81_exponential_partial _ (Or.inr (by rw [hlog, smul_smul, hn]; exact hsθ))).1
    · rw [C48_matrix_of_product, hex, ← axisAngleMx_eq_quat _ _ he]

/-- Interpolation between two rotations: outside of the interval the ends are returned; inside, the result is reached from
the first rotation by the fraction `s` of one turn, of at most a half turn, that leads to the second.  The turn
between the rotations and its fraction must not be below the threshold of the exponential. -/
theorem C84_slerp_partial (q p : V4) (hq : Unit4 q) (hp : Unit4 p)
    (hbig : eps4 ≤ norm3 (qeps (qplus (quatInv q) p))) :
    (∀ s ≤ 0, qslerp q p s = q) ∧ (∀ s ≥ 1, qslerp q p s = p) ∧
    ∃ θ e, Unit3 e ∧ 0 < θ ∧ θ ≤ π ∧ quat2r p = quat2r q * axisAngleMx θ e ∧
      ∀ s, 0 < s → s < 1 → eps4 ≤ s * θ →
        Unit4 (qslerp q p s) ∧ quat2r (qslerp q p s) = quat2r q * axisAngleMx (s * θ) e := by
  refine ⟨fun s h => if_pos h, fun s h => ?_, ?_⟩
  · unfold qslerp
    rw [if_neg (by linarith), if_pos h]
  · by_cases hf : norm4 (q + p) ^ 2 < norm4 (q - p) ^ 2
    · have hd := (flip_dot q p).mp hf
      have hnp : Unit4 (-p) := by unfold Unit4 at *; simpa using hp
      have hx : qplus (quatInv q) (-p) = -qplus (quatInv q) p := by
        apply ext4 <;> simp [qplus, quatInv] <;> ring
      have hnb : norm3 (qeps (qplus (quatInv q) (-p))) = norm3 (qeps (qplus (quatInv q) p)) := by
        rw [hx]; simp [norm3, qeps]
      obtain ⟨θ, e, he, h0, h1, -, hm, hs⟩ := slerp_core q (-p) hq hnp
        (by simp only [Pi.neg_apply]; linarith) (by rw [hnb]; exact hbig)
      refine ⟨θ, e, he, h0, h1, by rw [← hm, quat2r_neg], fun s s0 s1 hsθ => ?_⟩
      unfold qslerp
      rw [if_neg (by linarith), if_neg (by linarith), if_pos hf]
      exact hs s s0 s1 hsθ
    · have hd : 0 ≤ q 0 * p 0 + q 1 * p 1 + q 2 * p 2 + q 3 * p 3 := by
        by_contra hc
        exact hf ((flip_dot q p).mpr (by linarith))
      obtain ⟨θ, e, he, h0, h1, -, hm, hs⟩ := slerp_core q p hq hp hd hbig
      refine ⟨θ, e, he, h0, h1, hm, fun s s0 s1 hsθ => ?_⟩
      unfold qslerp
      rw [if_neg (by linarith), if_neg (by linarith), if_neg hf]
      exact hs s s0 s1 hsθ

/-- Interpolation between two transformations at the times `s0 < s1`: at and before the first time the first
transformation is returned, at and after the second time the second; in between the translation moves on the straight
line and the rotation turns by the elapsed fraction.  Exchanging the two ends changes nothing about the times. -/
theorem C84_interpolation_partial (A B : Trafo) (hA : A.Valid) (hB : B.Valid) (s0 s1 : ℝ)
    (h01 : s0 + 1 / 10 ^ 14 ≤ s1) (hbig : eps4 ≤ norm3 (qeps (qplus (quatInv A.q) B.q))) :
    (∀ s ≤ s0, interpolateTransformations A s0 B s1 s = A ∧ interpolateTransformations B s1 A s0 s = A) ∧
    (∀ s ≥ s1, interpolateTransformations A s0 B s1 s = B ∧ interpolateTransformations B s1 A s0 s = B) ∧
    ∃ θ e, Unit3 e ∧ 0 < θ ∧ θ ≤ π ∧ B.C = A.C * axisAngleMx θ e ∧
      ∀ s, s0 < s → s < s1 → eps4 ≤ (s - s0) / (s1 - s0) * θ →
        interpolateTransformations B s1 A s0 s = interpolateTransformations A s0 B s1 s ∧
        (interpolateTransformations A s0 B s1 s).C = A.C * axisAngleMx ((s - s0) / (s1 - s0) * θ) e ∧
        (interpolateTransformations A s0 B s1 s).t =
          (1 - (s - s0) / (s1 - s0)) • A.t + ((s - s0) / (s1 - s0)) • B.t := by
  have h14 : (0 : ℝ) < 1 / 10 ^ 14 := by norm_num
  have hpos : 0 < s1 - s0 := by linarith
  have hA' (s : ℝ) : interpolateTransformations A s0 B s1 s = slerpTransformations A B ((s - s0) / (s1 - s0)) := by
    unfold interpolateTransformations
    rw [if_neg (by linarith), max_eq_right (by linarith)]
  have hB' (s : ℝ) : interpolateTransformations B s1 A s0 s = slerpTransformations A B ((s - s0) / (s1 - s0)) := by
    unfold interpolateTransformations
    rw [if_pos (by linarith), max_eq_right (by linarith)]
  obtain ⟨hl, hr, θ, e, he, h0, h1, hm, hs⟩ := C84_slerp_partial A.q B.q hA hB hbig
  have mkA (q : V4) (hq : Unit4 q) (t : V3) : Trafo.mk' q t = ⟨q, t⟩ := by
    unfold Trafo.mk'; rw [normalize_unit hq]
  refine ⟨fun s h => ?_, fun s h => ?_, θ, e, he, h0, h1, hm, fun s h h' hθ => ?_⟩
  · have : (s - s0) / (s1 - s0) ≤ 0 := div_nonpos_of_nonpos_of_nonneg (by linarith) hpos.le
    rw [hA', hB']
    unfold slerpTransformations lerp
    rw [hl _ this, if_pos this, mkA _ hA]
    exact ⟨rfl, rfl⟩
  · have : 1 ≤ (s - s0) / (s1 - s0) := by rw [le_div_iff₀ hpos]; linarith
    rw [hA', hB']
    unfold slerpTransformations lerp
    rw [hr _ this, if_neg (by linarith), if_pos this, mkA _ hB]
    exact ⟨rfl, rfl⟩
  · have u0 : 0 < (s - s0) / (s1 - s0) := div_pos (by linarith) hpos
    have u1 : (s - s0) / (s1 - s0) < 1 := by rw [div_lt_one hpos]; linarith
    obtain ⟨hu, hc⟩ := hs _ u0 u1 hθ
    rw [hA', hB']
    unfold slerpTransformations
    rw [mkA _ hu]
    refine ⟨rfl, hc, ?_⟩
    unfold lerp
    rw [if_neg (by linarith), if_neg (by linarith)]

example : (⟨quatIdentity, 0⟩ : Trafo).Valid ∧ (⟨![3 / 5, 0, 0, 4 / 5], ![1, 2, 3]⟩ : Trafo).Valid ∧
    eps4 ≤ norm3 (qeps (qplus (quatInv quatIdentity) ![3 / 5, 0, 0, 4 / 5])) ∧ (1 : ℝ) + 1 / 10 ^ 14 ≤ 2 := by
  refine ⟨by simp [Trafo.Valid, Unit4, quatIdentity], by simp [Trafo.Valid, Unit4]; norm_num, ?_, by norm_num⟩
  have : norm3 (qeps (qplus (quatInv quatIdentity) ![3 / 5, 0, 0, 4 / 5])) = 3 / 5 := by
    simp [norm3, qeps, qplus, quatInv, quatIdentity]; exact Real.sqrt_sq (by norm_num)
  rw [this]; unfold eps4; norm_num

end Kalibr.Kin
