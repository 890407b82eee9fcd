import Verif.Kinematics.EulerProps

/-!
The Jacobian of the angular velocity of a rotation vector (C52, last part).
-/

namespace Kalibr.Kin

open Real

set_option linter.unusedSimpArgs false

theorem t8_eq (p : V3) : p 0 * p 0 + p 1 * p 1 + p 2 * p 2 = norm3 p ^ 2 := by rw [norm3_sq]; ring

theorem rpow32 {n : ℝ} (h : 0 ≤ n) : (n ^ 2) ^ (3 / 2 : ℝ) = n ^ 3 := by
  rw [← Real.rpow_natCast, ← Real.rpow_mul h, ← Real.rpow_natCast]; norm_num

theorem rpow52 {n : ℝ} (h : 0 ≤ n) : (n ^ 2) ^ (5 / 2 : ℝ) = n ^ 5 := by
  rw [← Real.rpow_natCast, ← Real.rpow_mul h, ← Real.rpow_natCast]; norm_num

/-- The derivative of the angular velocity with respect to component `k` of the parameters, in terms of the norm `n`
and its reciprocal `m`. -/
noncomputable def rvD (p r : V3) (n m s c : ℝ) : M3 :=
  let a := -(1 - c) * m ^ 2
  let b := (1 - s * m) * m ^ 2
  let a' := (-s * m ^ 2 + 2 * (1 - c) * m ^ 3) * m
  let b' := ((-c * m + s * m ^ 2) * m ^ 2 - 2 * (1 - s * m) * m ^ 3) * m
  let u := crossProduct p r
  let d := p 0 * r 0 + p 1 * r 1 + p 2 * r 2
  Matrix.of fun i k => a' * p k * u i + a * crossProduct (Pi.single k 1) r i
    + b' * p k * (p i * d - n ^ 2 * r i)
    + b * ((if i = k then d else 0) + p i * r k - 2 * p k * r i)

theorem rvJac_dp (p r : V3) (h : 0 < norm3 p) :
    (rvJac p r).dp = rvD p r (norm3 p) (1 / norm3 p) (sin (norm3 p)) (cos (norm3 p)) := by
  unfold rvJac
  simp only [t8_eq, Real.sqrt_sq h.le, rpow32 h.le, rpow52 h.le]
  have hn := norm3_sq p
  generalize norm3 p = n at *
  have hm : 1 / n ^ 5 = (1 / n) ^ 5 := by field_simp
  have hnm : n * (1 / n) = 1 := by field_simp
  simp only [hm]
  generalize 1 / n = m at *
  generalize sin n = s at *
  generalize cos n = c at *
  clear hm h
  ext i k
  fin_cases i <;> fin_cases k <;>
    simp [rvD, crossProduct, Matrix.vecHead, Matrix.vecTail, Pi.single_apply] <;>
    generalize p 0 = x at * <;> generalize p 1 = y at * <;> generalize p 2 = z at * <;>
    generalize r 0 = u at * <;> generalize r 1 = v at * <;> generalize r 2 = w at * 
  all_goals grind

theorem rvS_eq (p r : V3) (h : 1 / 10 ^ 14 < norm3 p) : rvOmega p r =
    r + (-(1 - cos (norm3 p)) * (1 / norm3 p) ^ 2) • crossProduct p r
      + ((1 - sin (norm3 p) * (1 / norm3 p)) * (1 / norm3 p) ^ 2) • crossProduct p (crossProduct p r) := by
  have hpos : 0 < norm3 p := lt_trans (by norm_num) h
  unfold rvOmega rvS
  simp only
  rw [if_neg (by linarith)]
  have hs2 : cos (norm3 p) = 1 - 2 * sin (norm3 p * (1 / 2)) ^ 2 := by
    have := cos_two_mul (norm3 p * (1 / 2))
    rw [cos_sq', show 2 * (norm3 p * (1 / 2)) = norm3 p by ring] at this
    rw [this]; ring
  rw [hs2]
  have hnm : norm3 p * (1 / norm3 p) = 1 := by field_simp
  generalize sin (norm3 p * (1 / 2)) = a at *
  generalize sin (norm3 p) = b at *
  generalize 1 / norm3 p = m at *
  generalize norm3 p = n at *
  ext i
  fin_cases i <;> simp [crossMx, crossProduct, Matrix.mulVec, dotProduct, Fin.sum_univ_three, Matrix.vecHead,
    Matrix.vecTail, Matrix.vecMul, Matrix.one_apply, Matrix.mul_apply] <;> grind

/-- Rotation vectors longer than the threshold `1e-14`: the reported Jacobian is the derivative of the angular
velocity along every differentiable curve of parameters and rates. -/
theorem C52_rotation_vector_jacobian_partial (p r : ℝ → V3) (dp dr : V3) (t : ℝ) (h : HasDerivAt p dp t)
    (hr : HasDerivAt r dr t) (hn : 1 / 10 ^ 14 < norm3 (p t)) :
    HasDerivAt (fun s => rvOmega (p s) (r s))
      ((rvJac (p t) (r t)).dp.mulVec dp + (rvJac (p t) (r t)).dr.mulVec dr) t := by
  have h0 := comp_deriv h 0; have h1 := comp_deriv h 1; have h2 := comp_deriv h 2
  have r0 := comp_deriv hr 0; have r1 := comp_deriv hr 1; have r2 := comp_deriv hr 2
  have hpos : 0 < norm3 (p t) := lt_trans (by norm_num) hn
  have nd := norm_deriv h hpos
  have md : HasDerivAt (fun s => 1 / norm3 (p s))
      (-((p t 0 * dp 0 + p t 1 * dp 1 + p t 2 * dp 2) * (1 / norm3 (p t))) * (1 / norm3 (p t)) ^ 2) t := by
    refine hasDeriv_of (nd.inv hpos.ne') ?_ ?_
    · funext s; simp
    · field_simp
  have sd := nd.sin
  have cd := nd.cos
  have ad := ((cd.const_sub 1).fun_neg).fun_mul (md.fun_pow 2)
  have bd := ((sd.fun_mul md).const_sub 1).fun_mul (md.fun_pow 2)
  have hev : (fun s => rvOmega (p s) (r s)) =ᶠ[nhds t] fun s =>
      r s + (-(1 - cos (norm3 (p s))) * (1 / norm3 (p s)) ^ 2) • crossProduct (p s) (r s)
      + ((1 - sin (norm3 (p s)) * (1 / norm3 (p s))) * (1 / norm3 (p s)) ^ 2) •
        crossProduct (p s) (crossProduct (p s) (r s)) := by
    filter_upwards [nd.continuousAt.eventually (eventually_gt_nhds hn)] with s hs
    exact rvS_eq _ _ hs
  refine HasDerivAt.congr_of_eventuallyEq ?_ hev
  have hdr : (rvJac (p t) (r t)).dr.mulVec dr = rvOmega (p t) dr := rfl
  rw [hdr, rvS_eq _ _ hn, rvJac_dp _ _ hpos]
  have u0 := (h1.fun_mul r2).fun_sub (h2.fun_mul r1)
  have u1 := (h2.fun_mul r0).fun_sub (h0.fun_mul r2)
  have u2 := (h0.fun_mul r1).fun_sub (h1.fun_mul r0)
  have hnn := norm3_sq (p t)
  have hnm : norm3 (p t) * (1 / norm3 (p t)) = 1 := by field_simp
  rw [hasDerivAt_pi]
  intro i
  fin_cases i
  · refine hasDeriv_of ((r0.fun_add (ad.fun_mul u0)).fun_add
      (bd.fun_mul ((h1.fun_mul u2).fun_sub (h2.fun_mul u1)))) ?_ ?_
    · funext s; simp [crossProduct, Matrix.vecHead, Matrix.vecTail, -one_div]
    · simp [rvD, crossProduct, Matrix.vecHead, Matrix.vecTail, Matrix.mulVec, dotProduct, Fin.sum_univ_three,
        Pi.single_apply, -one_div]
      generalize cos (norm3 (p t)) = c at *
      generalize sin (norm3 (p t)) = s at *
      generalize 1 / norm3 (p t) = m at *
      generalize norm3 (p t) = n at *
      clear * - hnn hnm
      generalize p t 0 = x at * ; generalize p t 1 = y at * ; generalize p t 2 = z at *
      generalize r t 0 = u at * ; generalize r t 1 = v at * ; generalize r t 2 = w at *
      generalize dp 0 = x' at * ; generalize dp 1 = y' at * ; generalize dp 2 = z' at *
      generalize dr 0 = u' at * ; generalize dr 1 = v' at * ; generalize dr 2 = w' at *
      rw [hnn]
      ring
  · refine hasDeriv_of ((r1.fun_add (ad.fun_mul u1)).fun_add
      (bd.fun_mul ((h2.fun_mul u0).fun_sub (h0.fun_mul u2)))) ?_ ?_
    · funext s; simp [crossProduct, Matrix.vecHead, Matrix.vecTail, -one_div]
    · simp [rvD, crossProduct, Matrix.vecHead, Matrix.vecTail, Matrix.mulVec, dotProduct, Fin.sum_univ_three,
        Pi.single_apply, -one_div]
      generalize cos (norm3 (p t)) = c at *
      generalize sin (norm3 (p t)) = s at *
      generalize 1 / norm3 (p t) = m at *
      generalize norm3 (p t) = n at *
      rw [hnn]
      ring
  · refine hasDeriv_of ((r2.fun_add (ad.fun_mul u2)).fun_add
      (bd.fun_mul ((h0.fun_mul u1).fun_sub (h1.fun_mul u0)))) ?_ ?_
    · funext s; simp [crossProduct, Matrix.vecHead, Matrix.vecTail, -one_div]
    · simp [rvD, crossProduct, Matrix.vecHead, Matrix.vecTail, Matrix.mulVec, dotProduct, Fin.sum_univ_three,
        Pi.single_apply, -one_div]
      generalize cos (norm3 (p t)) = c at *
      generalize sin (norm3 (p t)) = s at *
      generalize 1 / norm3 (p t) = m at *
      generalize norm3 (p t) = n at *
      rw [hnn]
      ring

example : HasDerivAt (fun s : ℝ => rvOmega (![1, 0, 0] + s • ![4, 5, 6]) (![1, 2, 3] + s • ![7, 8, 9]))
    ((rvJac (![1, 0, 0] + (0 : ℝ) • ![4, 5, 6]) (![1, 2, 3] + (0 : ℝ) • ![7, 8, 9])).dp.mulVec ![4, 5, 6]
      + (rvJac (![1, 0, 0] + (0 : ℝ) • ![4, 5, 6]) (![1, 2, 3] + (0 : ℝ) • ![7, 8, 9])).dr.mulVec ![7, 8, 9]) 0 := by
  refine C52_rotation_vector_jacobian_partial _ _ _ _ _ (line_deriv _ _ _) (line_deriv _ _ _) ?_
  simp [norm3]
  norm_num

end Kalibr.Kin
