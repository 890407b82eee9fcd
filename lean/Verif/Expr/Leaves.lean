import Verif.Expr.Calculus
import Verif.Kinematics.Update

/-!
# How the values of the design variables move when they are updated
-/

namespace Kalibr.Exp

open Kalibr.Kin Matrix Filter

theorem norm3_smul (s : ℝ) (d : V3) : norm3 (s • d) = |s| * norm3 d := by
  unfold norm3
  simp only [Pi.smul_apply, smul_eq_mul]
  rw [← Real.sqrt_sq_eq_abs, ← Real.sqrt_mul (sq_nonneg s)]
  congr 1; ring

theorem norm3_nonneg (d : V3) : 0 ≤ norm3 d := Real.sqrt_nonneg _

theorem axisAngle_small (d : V3) : ∀ᶠ s in nhds (0 : ℝ), axisAngle2quat (s • d) =
    ![s * d 0 * (1 / 2 + s ^ 2 * norm3 d ^ 2 * (1 / 48)), s * d 1 * (1 / 2 + s ^ 2 * norm3 d ^ 2 * (1 / 48)),
      s * d 2 * (1 / 2 + s ^ 2 * norm3 d ^ 2 * (1 / 48)), Real.cos (s * norm3 d * (1 / 2))] := by
  have hc : ContinuousAt (fun s : ℝ => |s| * norm3 d) 0 := by fun_prop
  have h0 : (fun s : ℝ => |s| * norm3 d) 0 < eps4 := by simpa using eps4_pos
  filter_upwards [hc.eventually_lt_const h0] with s hs
  unfold axisAngle2quat
  rw [norm3_smul]
  simp only [hs, if_true, Pi.smul_apply, smul_eq_mul]
  have h1 : |s| * norm3 d * (|s| * norm3 d) = s ^ 2 * norm3 d ^ 2 := by
    rw [← sq_abs s]; ring
  have h2 : Real.cos (|s| * norm3 d * (1 / 2)) = Real.cos (s * norm3 d * (1 / 2)) := by
    rcases abs_choice s with h | h <;> rw [h]
    rw [neg_mul, neg_mul, Real.cos_neg]
  rw [h1, h2]

theorem axisAngle_deriv (d : V3) :
    VDeriv (fun s : ℝ => axisAngle2quat (s • d)) ![d 0 * (1 / 2), d 1 * (1 / 2), d 2 * (1 / 2), 0] := by
  rw [vderiv_iff]
  refine HasDerivAt.congr_of_eventuallyEq ?_ (axisAngle_small d)
  rw [← vderiv_iff]
  have hp (a : ℝ) : HasDerivAt (fun s : ℝ => s * a * (1 / 2 + s ^ 2 * norm3 d ^ 2 * (1 / 48))) (a * (1 / 2)) 0 := by
    have h1 : HasDerivAt (fun s : ℝ => s * a) a 0 := by simpa using (hasDerivAt_id (0 : ℝ)).mul_const a
    have h2 : HasDerivAt (fun s : ℝ => 1 / 2 + s ^ 2 * norm3 d ^ 2 * (1 / 48)) 0 0 := by
      have := ((((hasDerivAt_id (0 : ℝ)).pow 2).mul_const (norm3 d ^ 2)).mul_const (1 / 48)).const_add (1 / 2)
      simpa using this
    have := h1.fun_mul h2
    simpa using this
  have hc : HasDerivAt (fun s : ℝ => Real.cos (s * norm3 d * (1 / 2))) 0 0 := by
    have := (((hasDerivAt_id (0 : ℝ)).mul_const (norm3 d)).mul_const (1 / 2)).cos
    simpa using this
  intro i
  fin_cases i
  · simpa using hp (d 0)
  · simpa using hp (d 1)
  · simpa using hp (d 2)
  · simpa using hc

theorem axisAngle_zero : axisAngle2quat 0 = ![0, 0, 0, 1] := by
  have h := (axisAngle_small (0 : V3)).self_of_nhds
  rw [zero_smul] at h
  rw [h]
  apply ext4 <;> simp

theorem updateQuat_eq (q : V4) (d : V3) : updateQuat q d = qplus (axisAngle2quat d) q := by
  apply ext4 <;> simp [updateQuat, qplus] <;> ring

theorem updateQuat_zero (q : V4) : updateQuat q 0 = q := by
  apply ext4 <;> simp [updateQuat, axisAngle_zero]

/-- Updating a quaternion moves it by `quatInvS` times the increment. -/
theorem updateQuat_deriv (q : V4) (d : V3) :
    VDeriv (fun s : ℝ => updateQuat q (s • d)) ((quatInvS q).mulVec d) := by
  have h := axisAngle_deriv d
  have h0 := h 0; have h1 := h 1; have h2 := h 2; have h3 := h 3
  simp at h0 h1 h2 h3
  intro i
  fin_cases i
  · refine ((((h3.const_mul (q 0)).add (h0.mul_const (q 3))).sub (h1.mul_const (q 2))).add
      (h2.mul_const (q 1))).congr_deriv ?_
    simp [quatInvS, Matrix.mulVec, dotProduct, Fin.sum_univ_three]; ring
  · refine ((((h3.const_mul (q 1)).add (h0.mul_const (q 2))).add (h1.mul_const (q 3))).sub
      (h2.mul_const (q 0))).congr_deriv ?_
    simp [quatInvS, Matrix.mulVec, dotProduct, Fin.sum_univ_three]; ring
  · refine ((((h3.const_mul (q 2)).sub (h0.mul_const (q 1))).add (h1.mul_const (q 0))).add
      (h2.mul_const (q 3))).congr_deriv ?_
    simp [quatInvS, Matrix.mulVec, dotProduct, Fin.sum_univ_three]; ring
  · refine ((((h3.const_mul (q 3)).sub (h0.mul_const (q 0))).sub (h1.mul_const (q 1))).sub
      (h2.mul_const (q 2))).congr_deriv ?_
    simp [quatInvS, Matrix.mulVec, dotProduct, Fin.sum_univ_three]; ring

theorem quat2r_deriv {q : ℝ → V4} {q' : V4} (h : VDeriv q q') (h0 : q 0 = ![0, 0, 0, 1]) :
    MDeriv (fun s => quat2r (q s)) (-crossMx ![2 * q' 0, 2 * q' 1, 2 * q' 2] + (2 * q' 3) • 1) := by
  have d0 := h 0; have d1 := h 1; have d2 := h 2; have d3 := h 3
  have e0 : q 0 0 = 0 := by rw [h0]; rfl
  have e1 : q 0 1 = 0 := by rw [h0]; rfl
  have e2 : q 0 2 = 0 := by rw [h0]; rfl
  have e3 : q 0 3 = 1 := by rw [h0]; rfl
  intro i j
  fin_cases i <;> fin_cases j
  · refine ((((d0.mul d0).sub (d1.mul d1)).sub (d2.mul d2)).add (d3.mul d3)).congr_deriv ?_
    simp [e0, e1, e2, e3, crossMx]; ring
  · refine (((d0.mul d1).mul_const 2).add ((d2.mul d3).mul_const 2)).congr_deriv ?_
    simp [e0, e1, e2, e3, crossMx]; ring
  · refine (((d0.mul d2).mul_const 2).sub ((d1.mul d3).mul_const 2)).congr_deriv ?_
    simp [e0, e1, e2, e3, crossMx]; ring
  · refine (((d0.mul d1).mul_const 2).sub ((d2.mul d3).mul_const 2)).congr_deriv ?_
    simp [e0, e1, e2, e3, crossMx]; ring
  · refine ((((d0.neg.mul d0).add (d1.mul d1)).sub (d2.mul d2)).add (d3.mul d3)).congr_deriv ?_
    simp [e0, e1, e2, e3, crossMx]; ring
  · refine (((d0.mul d3).mul_const 2).add ((d1.mul d2).mul_const 2)).congr_deriv ?_
    simp [e0, e1, e2, e3, crossMx]; ring
  · refine (((d0.mul d2).mul_const 2).add ((d1.mul d3).mul_const 2)).congr_deriv ?_
    simp [e0, e1, e2, e3, crossMx]; ring
  · refine (((d0.mul d3).mul_const (-2)).add ((d1.mul d2).mul_const 2)).congr_deriv ?_
    simp [e0, e1, e2, e3, crossMx]; ring
  · refine ((((d0.neg.mul d0).sub (d1.mul d1)).add (d2.mul d2)).add (d3.mul d3)).congr_deriv ?_
    simp [e0, e1, e2, e3, crossMx]; ring

/-- Updating a rotation turns it with the angular velocity of the increment. -/
theorem rot_deriv (q : V4) (d : V3) :
    AngularVelocity (fun s : ℝ => quat2r (updateQuat q (s • d))) d 0 := by
  rw [angular_iff]
  have h := quat2r_deriv (axisAngle_deriv d) (by simp [axisAngle_zero])
  have h2 := h.mul (MDeriv.const (quat2r q))
  have e : (fun s : ℝ => quat2r (updateQuat q (s • d))) = fun s => quat2r (axisAngle2quat (s • d)) * quat2r q := by
    funext s; rw [updateQuat_eq, C48_matrix_of_product]
  rw [e]
  refine h2.congr ?_
  have e1 : (![2 * (d 0 * (1 / 2)), 2 * (d 1 * (1 / 2)), 2 * (d 2 * (1 / 2))] : V3) = d := by
    apply ext3 <;> simp <;> ring
  have e2 : quat2r (axisAngle2quat ((0 : ℝ) • d)) = 1 := by
    rw [zero_smul, axisAngle_zero]; exact quat2r_identity
  simp only [e2, mul_zero, add_zero]
  simp only [Matrix.cons_val]
  rw [e1]
  simp [updateQuat_zero]

/-- Updating a direction. -/
theorem dir_deriv (d : DirDv) (δ : Fin 2 → ℝ) :
    VDeriv (fun (s : ℝ) j => (d.update (s • δ)).mag * (d.update (s • δ)).C j 2) ((jDir d).mulVec δ) := by
  have ha (a : ℝ) : HasDerivAt (fun s : ℝ => s * a) a 0 := by simpa using (hasDerivAt_id (0 : ℝ)).mul_const a
  have s0 := (ha (δ 0)).sin; have c0 := (ha (δ 0)).cos
  have s1 := (ha (δ 1)).sin; have c1 := (ha (δ 1)).cos
  simp at s0 c0 s1 c1
  intro j
  have h := ((((s0.neg.const_mul (d.C j 0)).add ((c0.mul s1).const_mul (d.C j 1))).add
    ((c0.mul c1).const_mul (d.C j 2))).const_mul d.mag)
  have e : (fun s : ℝ => (d.update (s • δ)).mag * (d.update (s • δ)).C j 2) = fun s =>
      d.mag * (d.C j 0 * -Real.sin (s * δ 0) + d.C j 1 * (Real.cos (s * δ 0) * Real.sin (s * δ 1)) +
        d.C j 2 * (Real.cos (s * δ 0) * Real.cos (s * δ 1))) := by
    funext s
    simp [DirDv.update, yprToR, Matrix.mul_apply, Fin.sum_univ_three]
  rw [show (fun s : ℝ => (fun (s : ℝ) j => (d.update (s • δ)).mag * (d.update (s • δ)).C j 2) s j) = _ from e]
  refine h.congr_deriv ?_
  fin_cases j <;> simp [jDir, Matrix.mulVec, dotProduct, Fin.sum_univ_two] <;> ring

theorem dir_zero (d : DirDv) : d.C * (yprToR ![0, 0, 0])ᵀ = d.C := by
  have : yprToR ![0, 0, 0] = 1 := by ext i j; fin_cases i <;> fin_cases j <;> simp [yprToR]
  rw [this]; simp

theorem unvec_apply (v : Fin 9 → ℝ) (i j : Fin 3) : unvec v i j = v ⟨3 * j + i, by omega⟩ := by
  fin_cases i <;> fin_cases j <;> rfl

theorem mat_deriv {cells : List (Fin 3 × Fin 3)} (d : MatDv) (δ : Fin cells.length → ℝ) (i j : Fin 3) :
    HasDerivAt (fun s : ℝ => (d.update (s • δ)).A i j) ((matB cells).mulVec δ ⟨3 * j + i, by omega⟩) 0 := by
  have e : (fun s : ℝ => (d.update (s • δ)).A i j) = fun s =>
      d.A i j + s * (matB cells).mulVec δ ⟨3 * j + i, by omega⟩ := by
    funext s
    simp [MatDv.update, unvec_apply, Matrix.mulVec_smul]
  rw [e]
  simpa using ((hasDerivAt_id (0 : ℝ)).mul_const _).const_add (d.A i j)

end Kalibr.Exp
