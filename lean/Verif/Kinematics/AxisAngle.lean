import Verif.Kinematics.R2Quat
import Mathlib.Analysis.SpecialFunctions.Trigonometric.Bounds
import Mathlib.Analysis.Real.Pi.Bounds

/-!
# Axis and angle, rotation vectors (C51, C53)
-/

namespace Kalibr.Kin

open Matrix Real

/-- Specification: `v` turned by the angle `a` about the unit axis `e` (Rodrigues), in the direction the
library uses: a positive angle turns the frame, so that coordinates turn the other way. -/
noncomputable def turn (a : ℝ) (e v : V3) : V3 :=
  cos a • v - sin a • crossProduct e v + ((1 - cos a) * (e ⬝ᵥ v)) • e

/-- Specification: vectors of unit length. -/
def Unit3 (e : V3) : Prop := e 0 ^ 2 + e 1 ^ 2 + e 2 ^ 2 = 1

theorem axisAngleMx_turn (a : ℝ) (e v : V3) : (axisAngleMx a e).mulVec v = turn a e v := by
  apply ext3 <;>
    simp [axisAngleMx, turn, Matrix.mulVec, dotProduct, Fin.sum_univ_three, crossProduct, Matrix.vecHead,
      Matrix.vecTail] <;> ring

theorem axisAngleMx_eq_quat (a : ℝ) (e : V3) (he : Unit3 e) :
    axisAngleMx a e = quat2r ![sin (a / 2) * e 0, sin (a / 2) * e 1, sin (a / 2) * e 2, cos (a / 2)] := by
  unfold Unit3 at he
  have hs : sin a = 2 * sin (a / 2) * cos (a / 2) := by rw [← sin_two_mul]; congr 1; ring
  have hc : cos a = 1 - 2 * sin (a / 2) ^ 2 := by
    rw [show a = 2 * (a / 2) by ring, cos_two_mul, cos_sq', show 2 * (a / 2) / 2 = a / 2 by ring]; ring
  have h1 := sin_sq_add_cos_sq (a / 2)
  unfold axisAngleMx
  rw [hs, hc]
  generalize sin (a / 2) = s at *
  generalize cos (a / 2) = c at *
  ext i j
  fin_cases i <;> fin_cases j <;> simp [quat2r] <;> grind

theorem axisAngleMx_mem (a : ℝ) (e : V3) (he : Unit3 e) : axisAngleMx a e ∈ SO3 := by
  rw [axisAngleMx_eq_quat a e he]
  apply C48_unit_gives_rotation
  unfold Unit3 at he
  have h1 := sin_sq_add_cos_sq (a / 2)
  simp [Unit4]
  linear_combination sin (a / 2) ^ 2 * he + h1

/-! ## C53 -/

/-- For angles from the threshold on, `axisAngle2R` turns every vector by the angle about the axis, and is a
proper rotation. -/
theorem C53_rotation_partial (a : ℝ) (e : V3) (he : Unit3 e) (ha : 1 / 10 ^ 12 ≤ a) :
    (∀ v, (axisAngle2R a e).mulVec v = turn a e v) ∧ axisAngle2R a e ∈ SO3 := by
  unfold axisAngle2R
  rw [if_neg (by linarith)]
  exact ⟨axisAngleMx_turn a e, axisAngleMx_mem a e he⟩

/-- Consecutive turns about the same axis add up, for angles from the threshold on. -/
theorem C53_angles_add_partial (a b : ℝ) (e : V3) (he : Unit3 e) (ha : 1 / 10 ^ 12 ≤ a) (hb : 1 / 10 ^ 12 ≤ b) :
    axisAngle2R a e * axisAngle2R b e = axisAngle2R (a + b) e := by
  unfold axisAngle2R
  rw [if_neg (by linarith), if_neg (by linarith), if_neg (by linarith)]
  rw [axisAngleMx_eq_quat a e he, axisAngleMx_eq_quat b e he, axisAngleMx_eq_quat _ e he,
    ← C48_matrix_of_product]
  congr 1
  unfold Unit3 at he
  have hs : sin ((a + b) / 2) = sin (a / 2) * cos (b / 2) + cos (a / 2) * sin (b / 2) := by
    rw [← sin_add]; congr 1; ring
  have hc : cos ((a + b) / 2) = cos (a / 2) * cos (b / 2) - sin (a / 2) * sin (b / 2) := by
    rw [← cos_add]; congr 1; ring
  rw [hs, hc]
  apply ext4 <;> simp [qplus]
  · ring
  · ring
  · ring
  · linear_combination (-(sin (a / 2) * sin (b / 2))) * he

/-- Below the threshold, which includes every negative angle, the result is the identity. -/
theorem C53_below_threshold (a : ℝ) (e : V3) (ha : a < 1 / 10 ^ 12) : axisAngle2R a e = 1 := if_pos ha

/-- So a negative angle gives the rotation by that angle only when the rotation by it is no rotation at
all. -/
theorem C53_negative_angles_counterexample (a : ℝ) (e : V3) (he : Unit3 e) (ha : a < 0) :
    (∀ v, (axisAngle2R a e).mulVec v = turn a e v) ↔ cos a = 1 := by
  rw [C53_below_threshold a e (by linarith [show (0 : ℝ) < 1 / 10 ^ 12 by norm_num])]
  constructor
  · intro h
    have h1 : axisAngleMx a e = 1 := by
      apply Matrix.ext_of_mulVec_single
      intro i
      rw [axisAngleMx_turn, ← h]
    have e0 := congrFun (congrFun h1 0) 0
    have e1 := congrFun (congrFun h1 1) 1
    have e2 := congrFun (congrFun h1 2) 2
    simp [axisAngleMx] at e0 e1 e2
    unfold Unit3 at he
    linear_combination (1 / 2) * (e0 + e1 + e2) - (1 / 2 - cos a / 2) * he
  · intro h v
    have hs : sin a = 0 := by
      have := sin_sq_add_cos_sq a
      rw [h] at this
      have h2 : sin a ^ 2 = 0 := by linarith
      exact pow_eq_zero_iff (two_ne_zero) |>.mp h2
    simp [turn, h, hs]

/-- A quarter turn back about the vertical axis. -/
example : cos (-(π / 2)) ≠ 1 ∧ -(π / 2) < 0 ∧ Unit3 ![0, 0, 1] := by
  refine ⟨by simp, by linarith [pi_pos], by simp [Unit3]⟩

example : Unit3 ![3 / 5, 0, 4 / 5] ∧ (1 : ℝ) / 10 ^ 12 ≤ 1 := by
  refine ⟨by simp [Unit3]; norm_num, by norm_num⟩

/-! ## C51 -/

theorem norm3_unit {e : V3} (he : Unit3 e) (a : ℝ) : norm3 (a • e) = |a| := by
  unfold norm3
  unfold Unit3 at he
  rw [← Real.sqrt_sq_eq_abs]
  congr 1
  simp only [Pi.smul_apply, smul_eq_mul]
  linear_combination a ^ 2 * he

theorem norm3_sq (p : V3) : norm3 p ^ 2 = p 0 ^ 2 + p 1 ^ 2 + p 2 ^ 2 := Real.sq_sqrt (by positivity)

theorem norm3_nonneg (p : V3) : 0 ≤ norm3 p := Real.sqrt_nonneg _

theorem unit_of_norm {p : V3} (h : 0 < norm3 p) : Unit3 ((1 / norm3 p) • p) := by
  unfold Unit3
  have := norm3_sq p
  simp only [Pi.smul_apply, smul_eq_mul]
  field_simp
  linarith

/-- The vector read from the matrix of a turn by an angle between the thresholds. -/
theorem mx2AxisAngle_of (thr a : ℝ) (e : V3) (he : Unit3 e) (h0 : thr ≤ a) (hp : a ≤ π)
    (hthr : 0 < thr) (hs : thr ≤ 2 * sin a) : mx2AxisAngle thr (axisAngleMx a e) = a • e := by
  have ha : 0 ≤ a := by linarith
  have hsa : 0 < sin a := by linarith
  have htr : (axisAngleMx a e 0 0 + axisAngleMx a e 1 1 + axisAngleMx a e 2 2 - 1) * (1 / 2) = cos a := by
    unfold Unit3 at he
    simp [axisAngleMx]
    linear_combination (1 / 2 - cos a / 2) * he
  have hax : (![axisAngleMx a e 2 1 - axisAngleMx a e 1 2, axisAngleMx a e 0 2 - axisAngleMx a e 2 0,
      axisAngleMx a e 1 0 - axisAngleMx a e 0 1] : V3) = (-(2 * sin a)) • e := by
    apply ext3 <;> simp [axisAngleMx] <;> ring
  unfold mx2AxisAngle
  simp only [htr, hax]
  rw [min_eq_left (cos_le_one a), max_eq_right (neg_one_le_cos a), arccos_cos ha hp, abs_of_nonneg ha,
    if_neg (by linarith), norm3_unit he, abs_neg, abs_abs, abs_of_pos (by linarith), if_neg (by linarith),
    smul_smul]
  congr 1
  field_simp

/-- The vector read from the matrix of a turn by an angle so close to a half turn that the sine is below
the threshold. -/
theorem mx2AxisAngle_zero (thr a : ℝ) (e : V3) (he : Unit3 e) (h0 : 0 ≤ a) (hp : a ≤ π)
    (hs : 2 * sin a < thr) : mx2AxisAngle thr (axisAngleMx a e) = 0 := by
  have hsa : 0 ≤ sin a := sin_nonneg_of_nonneg_of_le_pi h0 hp
  have hax : (![axisAngleMx a e 2 1 - axisAngleMx a e 1 2, axisAngleMx a e 0 2 - axisAngleMx a e 2 0,
      axisAngleMx a e 1 0 - axisAngleMx a e 0 1] : V3) = (-(2 * sin a)) • e := by
    apply ext3 <;> simp [axisAngleMx] <;> ring
  unfold mx2AxisAngle
  simp only [hax]
  split_ifs with h1 h2
  · rfl
  · rfl
  · exfalso
    rw [norm3_unit he, abs_neg, abs_abs, abs_of_nonneg (by linarith)] at h2
    linarith

/-- Away from zero and from a half turn by the threshold, the sine is above the threshold. -/
theorem two_sin_ge {thr a : ℝ} (ht : 0 ≤ thr) (h0 : thr ≤ a) (h1 : a ≤ π - thr) : thr ≤ 2 * sin a := by
  have half : ∀ x : ℝ, 0 ≤ x → x ≤ π / 2 → x ≤ 2 * sin x := by
    intro x hx hx2
    have h := mul_le_sin hx hx2
    have hpi := pi_pos
    have hpi4 := pi_le_four
    have : x ≤ 2 * (2 / π * x) := by
      rw [show 2 * (2 / π * x) = x * (4 / π) by ring]
      have : 1 ≤ 4 / π := by rw [le_div_iff₀ hpi]; linarith
      nlinarith
    linarith
  rcases le_total a (π / 2) with h | h
  · linarith [half a (by linarith) h]
  · have := half (π - a) (by linarith) (by linarith)
    rw [sin_pi_sub] at this
    linarith

/-- Every rotation vector gives a proper rotation: the turn by its length about its direction. -/
theorem C51_matrix_is_rotation (p : V3) : rvToR p ∈ SO3 ∧
    (1 / 10 ^ 14 ≤ norm3 p → ∀ v, (rvToR p).mulVec v = turn (norm3 p) ((1 / norm3 p) • p) v) := by
  unfold rvToR
  simp only
  split_ifs with h
  · exact ⟨Submonoid.one_mem _, fun h2 => absurd h (by linarith)⟩
  · have hp : 0 < norm3 p := by linarith [show (0 : ℝ) < 1 / 10 ^ 14 by norm_num]
    exact ⟨axisAngleMx_mem _ _ (unit_of_norm hp), fun _ => axisAngleMx_turn _ _⟩

/-- Round trip of a rotation vector through the matrix, unless the vector is shorter than `1e-14` (and
not zero) or within `1e-14` of a half turn. -/
theorem C51_vector_round_trip_partial (p : V3)
    (h : p = 0 ∨ 1 / 10 ^ 14 ≤ norm3 p ∧ norm3 p ≤ π - 1 / 10 ^ 14) : rvOfR (rvToR p) = p := by
  rcases h with rfl | ⟨h0, h1⟩
  · have : norm3 0 = 0 := by simp [norm3]
    unfold rvToR rvOfR mx2AxisAngle
    simp [this]
  · have hp : 0 < norm3 p := by linarith [show (0 : ℝ) < 1 / 10 ^ 14 by norm_num]
    unfold rvToR rvOfR
    simp only
    rw [if_neg (by linarith), mx2AxisAngle_of _ _ _ (unit_of_norm hp) h0
      (by linarith [show (0 : ℝ) < 1 / 10 ^ 14 by norm_num]) (by norm_num)
      (two_sin_ge (by norm_num) h0 h1), smul_smul]
    rw [show norm3 p * (1 / norm3 p) = 1 by field_simp, one_smul]

/-- The same for the free functions, whose thresholds are larger. -/
theorem C51_free_functions_round_trip_partial (p : V3)
    (h : p = 0 ∨ 1 / 10 ^ 10 ≤ norm3 p ∧ norm3 p ≤ π - 1 / 10 ^ 10) : R2AxisAngle (rotVec2R p) = p := by
  rcases h with rfl | ⟨h0, h1⟩
  · have : norm3 0 = 0 := by simp [norm3]
    unfold rotVec2R R2AxisAngle mx2AxisAngle
    simp [this]
  · have hp : 0 < norm3 p := by linarith [show (0 : ℝ) < 1 / 10 ^ 10 by norm_num]
    have h12 : ¬ norm3 p < 1 / 10 ^ 12 := by
      have : (1 : ℝ) / 10 ^ 12 ≤ 1 / 10 ^ 10 := by norm_num
      linarith
    have hv : (![p 0 * (1 / norm3 p), p 1 * (1 / norm3 p), p 2 * (1 / norm3 p)] : V3) = (1 / norm3 p) • p := by
      apply ext3 <;> simp <;> ring
    unfold rotVec2R R2AxisAngle axisAngle2R
    simp only
    rw [if_neg h12, if_neg h12, hv, mx2AxisAngle_of _ _ _ (unit_of_norm hp) h0
      (by linarith [show (0 : ℝ) < 1 / 10 ^ 10 by norm_num]) (by norm_num)
      (two_sin_ge (by norm_num) h0 h1), smul_smul]
    rw [show norm3 p * (1 / norm3 p) = 1 by field_simp, one_smul]

/-- Half turns are lost: every rotation vector within `4e-15` of length pi, and the half turn itself, comes
back as the zero vector. -/
theorem C51_half_turn_counterexample (p : V3) (h0 : π - 4 / 10 ^ 15 ≤ norm3 p) (h1 : norm3 p ≤ π) :
    rvOfR (rvToR p) = 0 ∧ p ≠ 0 := by
  have h3 := pi_gt_three
  have hp : 0 < norm3 p := by linarith [show (4 : ℝ) / 10 ^ 15 < 1 by norm_num]
  have h14 : ¬ norm3 p < 1 / 10 ^ 14 := by
    have : (1 : ℝ) / 10 ^ 14 ≤ 1 := by norm_num
    have : (4 : ℝ) / 10 ^ 15 < 1 := by norm_num
    linarith
  constructor
  · unfold rvToR rvOfR
    simp only
    rw [if_neg h14]
    apply mx2AxisAngle_zero _ _ _ (unit_of_norm hp) (by linarith) h1
    have h5 : sin (norm3 p) ≤ π - norm3 p := by
      rw [← sin_pi_sub]
      exact sin_le (by linarith)
    have : (1 : ℝ) / 10 ^ 14 > 2 * (4 / 10 ^ 15) := by norm_num
    linarith
  · rintro rfl
    simp [norm3] at hp

/-- From the matrix: every rotation whose angle is between the thresholds is recovered from its rotation
vector, which is not longer than pi. -/
theorem C51_matrix_round_trip_partial (R : M3) (hR : R ∈ SO3)
    (h0 : 1 / 10 ^ 14 ≤ arccos ((R 0 0 + R 1 1 + R 2 2 - 1) / 2))
    (h1 : arccos ((R 0 0 + R 1 1 + R 2 2 - 1) / 2) ≤ π - 1 / 10 ^ 14) :
    rvToR (rvOfR R) = R ∧ norm3 (rvOfR R) ≤ π := by
  have e := SO3.eqs hR
  have hsd := sd_nonneg e
  obtain ⟨h01, h02, h03, h12, h13, h23, m012, m013, m023, m102, m103, m123, m201, m203, m213, m301, m302, m312⟩ :=
    e.minors
  have n3 := hsd 3; have n0 := hsd 0; have n1 := hsd 1; have n2 := hsd 2
  simp only [sd, Matrix.cons_val] at n0 n1 n2 n3
  have hc : R 0 0 + R 1 1 + R 2 2 = 2 * ((R 0 0 + R 1 1 + R 2 2 - 1) / 2) + 1 := by ring
  generalize (R 0 0 + R 1 1 + R 2 2 - 1) / 2 = c at h0 h1 hc
  have hc1 : -1 ≤ c := by linarith
  have hc2 : c ≤ 1 := by linarith
  have hca : cos (arccos c) = c := cos_arccos hc1 hc2
  generalize arccos c = a at h0 h1 hca
  have hthr := two_sin_ge (by norm_num) h0 h1
  have h14 : (0 : ℝ) < 1 / 10 ^ 14 := by norm_num
  have hsa : 0 < sin a := by linarith
  have hsc := sin_sq_add_cos_sq a
  rw [hca] at hsc
  -- the axis
  set e : V3 := (-(1 / (2 * sin a))) • ![R 2 1 - R 1 2, R 0 2 - R 2 0, R 1 0 - R 0 1] with he
  have hue : Unit3 e := by
    unfold Unit3
    simp only [he, Pi.smul_apply, smul_eq_mul, Matrix.cons_val]
    field_simp
    simp only [sd, Matrix.cons_val] at h03 h13 h23
    have : sin a ^ 2 = 1 - c ^ 2 := by linarith
    rw [this]
    linear_combination -h03 - h13 - h23 + (1 - 2 * c - R 0 0 - R 1 1 - R 2 2) * hc
  have hmx : axisAngleMx a e = R := by
    simp only [sd, Matrix.cons_val] at h03 h13 h23 m301 m302 m312
    have hs2 : sin a ^ 2 = (1 - c) * (1 + c) := by linear_combination hsc
    have h1c : 1 + c ≠ 0 := by
      intro h; rw [h, mul_zero] at hs2
      exact absurd (pow_eq_zero_iff (two_ne_zero) |>.mp hs2) hsa.ne'
    have key (u v w : ℝ) (h : u * v = (2 + 2 * c) * w) :
        (1 - c) * (1 / (2 * sin a) * u * (1 / (2 * sin a) * v)) = w / 2 := by
      have : (1 - c) * (1 / (2 * sin a) * u * (1 / (2 * sin a) * v)) = (1 - c) * (u * v) / (4 * sin a ^ 2) := by
        field_simp; ring
      rw [this, hs2, h]
      have h1d : 1 - c ≠ 0 := by
        intro h; rw [h, zero_mul] at hs2
        exact absurd (pow_eq_zero_iff (two_ne_zero) |>.mp hs2) hsa.ne'
      field_simp; ring
    have e0 : e 0 = 1 / (2 * sin a) * (R 1 2 - R 2 1) := by simp [he]; ring
    have e1 : e 1 = 1 / (2 * sin a) * (R 2 0 - R 0 2) := by simp [he]; ring
    have e2 : e 2 = 1 / (2 * sin a) * (R 0 1 - R 1 0) := by simp [he]; ring
    have k00 := key (R 1 2 - R 2 1) (R 1 2 - R 2 1) (1 + R 0 0 - R 1 1 - R 2 2)
      (by linear_combination -h03 + (1 + R 0 0 - R 1 1 - R 2 2) * hc)
    have k11 := key (R 2 0 - R 0 2) (R 2 0 - R 0 2) (1 - R 0 0 + R 1 1 - R 2 2)
      (by linear_combination -h13 + (1 - R 0 0 + R 1 1 - R 2 2) * hc)
    have k22 := key (R 0 1 - R 1 0) (R 0 1 - R 1 0) (1 - R 0 0 - R 1 1 + R 2 2)
      (by linear_combination -h23 + (1 - R 0 0 - R 1 1 + R 2 2) * hc)
    have k01 := key (R 1 2 - R 2 1) (R 2 0 - R 0 2) (R 0 1 + R 1 0)
      (by linear_combination m301 + (R 0 1 + R 1 0) * hc)
    have k02 := key (R 1 2 - R 2 1) (R 0 1 - R 1 0) (R 0 2 + R 2 0)
      (by linear_combination m302 + (R 0 2 + R 2 0) * hc)
    have k12 := key (R 2 0 - R 0 2) (R 0 1 - R 1 0) (R 1 2 + R 2 1)
      (by linear_combination m312 + (R 1 2 + R 2 1) * hc)
    rw [← e0] at k00; rw [← e1] at k11; rw [← e2] at k22
    rw [← e0, ← e1] at k01; rw [← e0, ← e2] at k02; rw [← e1, ← e2] at k12
    have f0 : sin a * e 0 = (R 1 2 - R 2 1) / 2 := by rw [e0]; field_simp
    have f1 : sin a * e 1 = (R 2 0 - R 0 2) / 2 := by rw [e1]; field_simp
    have f2 : sin a * e 2 = (R 0 1 - R 1 0) / 2 := by rw [e2]; field_simp
    unfold axisAngleMx
    rw [hca]
    ext i j
    fin_cases i <;> fin_cases j <;> simp <;> linarith
  have hrv : rvOfR R = a • e := by
    rw [← hmx]
    exact mx2AxisAngle_of _ _ _ hue h0 (by linarith) h14 hthr
  have ha0 : 0 < a := by linarith
  constructor
  · rw [hrv]
    unfold rvToR
    simp only
    rw [norm3_unit hue, abs_of_pos ha0, if_neg (by linarith), smul_smul, show 1 / a * a = 1 by field_simp, one_smul,
      hmx]
  · rw [hrv, norm3_unit hue, abs_of_pos ha0]
    linarith

/-- A rotation vector of length one. -/
example : 1 / 10 ^ 14 ≤ norm3 ![1, 0, 0] ∧ norm3 ![1, 0, 0] ≤ π - 1 / 10 ^ 10 := by
  have : norm3 ![1, 0, 0] = 1 := by simp [norm3]
  rw [this]
  have := pi_gt_three
  exact ⟨by norm_num, by linarith [show (1 : ℝ) / 10 ^ 10 < 1 by norm_num]⟩

/-- A half turn. -/
example : norm3 ![π, 0, 0] = π := by
  simp [norm3, Real.sqrt_sq pi_pos.le]

end Kalibr.Kin
