import Verif.Kinematics.EulerModel
import Verif.Kinematics.AxisAngle
import Mathlib.Analysis.SpecialFunctions.Trigonometric.Deriv
import Mathlib.Analysis.Calculus.Deriv.Prod
import Mathlib.Analysis.Calculus.Deriv.Inv

/-!
# Euler angle rates and angular velocity (C52)
-/

namespace Kalibr.Kin

open Matrix Real

set_option linter.unusedSimpArgs false

/-- Specification: the orientation `C` has the angular velocity `ω` at time `t`.  In the convention of the
library, in which the matrix takes coordinates to the rotating frame, every constant vector `v` then moves
with `d/dt (C v) = - ω × (C v)`. -/
def AngularVelocity (C : ℝ → M3) (ω : V3) (t : ℝ) : Prop :=
  ∀ (v : V3) (i : Fin 3), HasDerivAt (fun s => (C s).mulVec v i) (-(crossProduct ω ((C t).mulVec v)) i) t

/-- Specification: the Jacobian `J` is the derivative of `ω` at the parameters `p` and rates `r`: along every
differentiable curve of parameters and rates, `ω` changes by `J` times the change of the curve. -/
def TrueJacobian (ω : V3 → V3 → V3) (J : V3 → V3 → Jac36) : Prop :=
  ∀ (p r : ℝ → V3) (dp dr : V3) (t : ℝ), HasDerivAt p dp t → HasDerivAt r dr t →
    HasDerivAt (fun s => ω (p s) (r s)) ((J (p t) (r t)).dp.mulVec dp + (J (p t) (r t)).dr.mulVec dr) t

theorem angular_of_entries {C : ℝ → M3} {ω : V3} {t : ℝ}
    (h : ∀ i j, HasDerivAt (fun s => C s i j) ((-(crossMx ω * C t)) i j) t) : AngularVelocity C ω t := by
  intro v i
  generalize hD : -(crossMx ω * C t) = D at h
  have h1 : HasDerivAt (fun s => C s i 0 * v 0 + C s i 1 * v 1 + C s i 2 * v 2)
      (D i 0 * v 0 + D i 1 * v 1 + D i 2 * v 2) t :=
    (((h i 0).mul_const (v 0)).add ((h i 1).mul_const (v 1))).add ((h i 2).mul_const (v 2))
  have h2 : (fun s => (C s).mulVec v i) = fun s => C s i 0 * v 0 + C s i 1 * v 1 + C s i 2 * v 2 := by
    funext s
    simp [Matrix.mulVec, dotProduct, Fin.sum_univ_three]
  rw [h2]
  refine h1.congr_deriv ?_
  rw [← hD]
  fin_cases i <;>
    simp [crossMx, crossProduct, Matrix.mul_apply, Matrix.mulVec, dotProduct, Fin.sum_univ_three, Matrix.vecHead,
      Matrix.vecTail, Matrix.vecMul] <;> ring

/-! ## The three Euler angle conventions -/

section
variable {p : ℝ → V3} {r : V3} {t : ℝ}

theorem comp_deriv (h : HasDerivAt p r t) (i : Fin 3) : HasDerivAt (fun s => p s i) (r i) t :=
  hasDerivAt_pi.mp h i

end

theorem hasDeriv_of {f g : ℝ → ℝ} {d d' t : ℝ} (hg : HasDerivAt g d t) (hf : f = g) (hd : d = d') :
    HasDerivAt f d' t := by
  rw [hf, ← hd]; exact hg

/-- Yaw, pitch and roll: the S matrix times the rates is the angular velocity of the rotation matrix. -/
theorem C52_ypr_rates (p : ℝ → V3) (r : V3) (t : ℝ) (h : HasDerivAt p r t) :
    AngularVelocity (fun s => yprToR (p s)) ((yprS (p t)).mulVec r) t := by
  have h0 := comp_deriv h 0; have h1 := comp_deriv h 1; have h2 := comp_deriv h 2
  have cz := h0.cos; have sz := h0.sin; have cy := h1.cos; have sy := h1.sin; have cx := h2.cos
  have sx := h2.sin
  have z1 := sin_sq_add_cos_sq (p t 0); have y1 := sin_sq_add_cos_sq (p t 1)
  have x1 := sin_sq_add_cos_sq (p t 2)
  apply angular_of_entries
  intro i j
  fin_cases i <;> fin_cases j
  · refine (cz.mul cy).congr_deriv ?_
    simp [crossMx, Matrix.mulVec, dotProduct, Fin.sum_univ_three, yprS, yprBuildS, yprToR]
    grind
  · refine ((sz.neg.mul cx).add ((cz.mul sy).mul sx)).congr_deriv ?_
    simp [crossMx, Matrix.mulVec, dotProduct, Fin.sum_univ_three, yprS, yprBuildS, yprToR]
    grind
  · refine ((sz.mul sx).add ((cz.mul sy).mul cx)).congr_deriv ?_
    simp [crossMx, Matrix.mulVec, dotProduct, Fin.sum_univ_three, yprS, yprBuildS, yprToR]
    grind
  · refine (sz.mul cy).congr_deriv ?_
    simp [crossMx, Matrix.mulVec, dotProduct, Fin.sum_univ_three, yprS, yprBuildS, yprToR]
    grind
  · refine ((cz.mul cx).add ((sz.mul sy).mul sx)).congr_deriv ?_
    simp [crossMx, Matrix.mulVec, dotProduct, Fin.sum_univ_three, yprS, yprBuildS, yprToR]
    grind
  · refine ((cz.neg.mul sx).add ((sz.mul sy).mul cx)).congr_deriv ?_
    simp [crossMx, Matrix.mulVec, dotProduct, Fin.sum_univ_three, yprS, yprBuildS, yprToR]
    grind
  · refine (sy.neg).congr_deriv ?_
    simp [crossMx, Matrix.mulVec, dotProduct, Fin.sum_univ_three, yprS, yprBuildS, yprToR]
    grind
  · refine (cy.mul sx).congr_deriv ?_
    simp [crossMx, Matrix.mulVec, dotProduct, Fin.sum_univ_three, yprS, yprBuildS, yprToR]
    grind
  · refine (cy.mul cx).congr_deriv ?_
    simp [crossMx, Matrix.mulVec, dotProduct, Fin.sum_univ_three, yprS, yprBuildS, yprToR]
    grind

/-- Euler angles ZYX: the S matrix times the rates is the angular velocity of the rotation matrix. -/
theorem C52_zyx_rates (p : ℝ → V3) (r : V3) (t : ℝ) (h : HasDerivAt p r t) :
    AngularVelocity (fun s => zyxToR (p s)) ((zyxS (p t)).mulVec r) t := by
  have h0 := comp_deriv h 0; have h1 := comp_deriv h 1; have h2 := comp_deriv h 2
  have cz := h0.fun_neg.cos; have sz := h0.fun_neg.sin; have cy := h1.fun_neg.cos; have sy := h1.fun_neg.sin
  have cx := h2.fun_neg.cos; have sx := h2.fun_neg.sin
  have z1 := sin_sq_add_cos_sq (p t 0); have y1 := sin_sq_add_cos_sq (p t 1)
  have x1 := sin_sq_add_cos_sq (p t 2)
  apply angular_of_entries
  intro i j
  fin_cases i <;> fin_cases j
  · refine (cz.mul cy).congr_deriv ?_
    simp [crossMx, Matrix.mulVec, dotProduct, Fin.sum_univ_three, zyxS, zyxBuildS, zyxToR]
    grind
  · refine ((sz.neg.mul cx).add ((cz.mul sy).mul sx)).congr_deriv ?_
    simp [crossMx, Matrix.mulVec, dotProduct, Fin.sum_univ_three, zyxS, zyxBuildS, zyxToR]
    grind
  · refine ((sz.mul sx).add ((cz.mul sy).mul cx)).congr_deriv ?_
    simp [crossMx, Matrix.mulVec, dotProduct, Fin.sum_univ_three, zyxS, zyxBuildS, zyxToR]
    grind
  · refine (sz.mul cy).congr_deriv ?_
    simp [crossMx, Matrix.mulVec, dotProduct, Fin.sum_univ_three, zyxS, zyxBuildS, zyxToR]
    grind
  · refine ((cz.mul cx).add ((sz.mul sy).mul sx)).congr_deriv ?_
    simp [crossMx, Matrix.mulVec, dotProduct, Fin.sum_univ_three, zyxS, zyxBuildS, zyxToR]
    grind
  · refine ((cz.neg.mul sx).add ((sz.mul sy).mul cx)).congr_deriv ?_
    simp [crossMx, Matrix.mulVec, dotProduct, Fin.sum_univ_three, zyxS, zyxBuildS, zyxToR]
    grind
  · refine (sy.neg).congr_deriv ?_
    simp [crossMx, Matrix.mulVec, dotProduct, Fin.sum_univ_three, zyxS, zyxBuildS, zyxToR]
    grind
  · refine (cy.mul sx).congr_deriv ?_
    simp [crossMx, Matrix.mulVec, dotProduct, Fin.sum_univ_three, zyxS, zyxBuildS, zyxToR]
    grind
  · refine (cy.mul cx).congr_deriv ?_
    simp [crossMx, Matrix.mulVec, dotProduct, Fin.sum_univ_three, zyxS, zyxBuildS, zyxToR]
    grind

/-- Euler angles ZXY: the S matrix times the rates is the angular velocity of the rotation matrix. -/
theorem C52_zxy_rates (p : ℝ → V3) (r : V3) (t : ℝ) (h : HasDerivAt p r t) :
    AngularVelocity (fun s => zxyToR (p s)) ((zxyS (p t)).mulVec r) t := by
  have h0 := comp_deriv h 0; have h1 := comp_deriv h 1; have h2 := comp_deriv h 2
  have cz := h0.cos; have sz := h0.sin; have cx := h1.cos; have sx := h1.sin; have cy := h2.cos
  have sy := h2.sin
  have z1 := sin_sq_add_cos_sq (p t 0); have y1 := sin_sq_add_cos_sq (p t 1)
  have x1 := sin_sq_add_cos_sq (p t 2)
  apply angular_of_entries
  intro i j
  fin_cases i <;> fin_cases j
  · refine ((cz.mul cy).sub ((sz.mul sx).mul sy)).congr_deriv ?_
    simp [crossMx, Matrix.mulVec, dotProduct, Fin.sum_univ_three, zxyS, zxyToR]
    grind
  · refine (sz.neg.mul cx).congr_deriv ?_
    simp [crossMx, Matrix.mulVec, dotProduct, Fin.sum_univ_three, zxyS, zxyToR]
    grind
  · refine ((cz.mul sy).add ((sz.mul sx).mul cy)).congr_deriv ?_
    simp [crossMx, Matrix.mulVec, dotProduct, Fin.sum_univ_three, zxyS, zxyToR]
    grind
  · refine ((sz.mul cy).add ((cz.mul sx).mul sy)).congr_deriv ?_
    simp [crossMx, Matrix.mulVec, dotProduct, Fin.sum_univ_three, zxyS, zxyToR]
    grind
  · refine (cz.mul cx).congr_deriv ?_
    simp [crossMx, Matrix.mulVec, dotProduct, Fin.sum_univ_three, zxyS, zxyToR]
    grind
  · refine ((sz.mul sy).sub ((cz.mul sx).mul cy)).congr_deriv ?_
    simp [crossMx, Matrix.mulVec, dotProduct, Fin.sum_univ_three, zxyS, zxyToR]
    grind
  · refine (cx.neg.mul sy).congr_deriv ?_
    simp [crossMx, Matrix.mulVec, dotProduct, Fin.sum_univ_three, zxyS, zxyToR]
    grind
  · refine (sx).congr_deriv ?_
    simp [crossMx, Matrix.mulVec, dotProduct, Fin.sum_univ_three, zxyS, zxyToR]
    grind
  · refine (cx.mul cy).congr_deriv ?_
    simp [crossMx, Matrix.mulVec, dotProduct, Fin.sum_univ_three, zxyS, zxyToR]
    grind

/-- Yaw, pitch and roll: the reported Jacobian is the derivative of the angular velocity. -/
theorem C52_ypr_jacobian : TrueJacobian yprOmega yprJac := by
  intro p r dp dr t h hr
  have h0 := comp_deriv h 0; have h1 := comp_deriv h 1; have h2 := comp_deriv h 2
  have r0 := comp_deriv hr 0; have r1 := comp_deriv hr 1; have r2 := comp_deriv hr 2
  have cz := h0.cos; have sz := h0.sin; have cy := h1.cos; have sy := h1.sin
  rw [hasDerivAt_pi]
  intro i
  fin_cases i
  · refine hasDeriv_of ((sz.mul r1).sub ((cy.mul cz).mul r2)) ?_ ?_
    · funext s; simp [yprOmega, yprS, yprBuildS, yprJac, Matrix.mulVec, dotProduct, Fin.sum_univ_three]; try ring
    · simp [yprOmega, yprS, yprBuildS, yprJac, Matrix.mulVec, dotProduct, Fin.sum_univ_three]; try ring
  · refine hasDeriv_of ((cz.mul r1).neg.sub ((cy.mul sz).mul r2)) ?_ ?_
    · funext s; simp [yprOmega, yprS, yprBuildS, yprJac, Matrix.mulVec, dotProduct, Fin.sum_univ_three]; try ring
    · simp [yprOmega, yprS, yprBuildS, yprJac, Matrix.mulVec, dotProduct, Fin.sum_univ_three]; try ring
  · refine hasDeriv_of (r0.neg.add (sy.mul r2)) ?_ ?_
    · funext s; simp [yprOmega, yprS, yprBuildS, yprJac, Matrix.mulVec, dotProduct, Fin.sum_univ_three]; try ring
    · simp [yprOmega, yprS, yprBuildS, yprJac, Matrix.mulVec, dotProduct, Fin.sum_univ_three]; try ring

/-- Euler angles ZYX: the reported Jacobian is the derivative of the angular velocity. -/
theorem C52_zyx_jacobian : TrueJacobian zyxOmega zyxJac := by
  intro p r dp dr t h hr
  have h0 := comp_deriv h 0; have h1 := comp_deriv h 1; have h2 := comp_deriv h 2
  have r0 := comp_deriv hr 0; have r1 := comp_deriv hr 1; have r2 := comp_deriv hr 2
  have cz := h0.fun_neg.cos; have sz := h0.fun_neg.sin; have cy := h1.fun_neg.cos; have sy := h1.fun_neg.sin
  rw [hasDerivAt_pi]
  intro i
  fin_cases i
  · refine hasDeriv_of ((sz.mul r1).neg.add ((cy.mul cz).mul r2)) ?_ ?_
    · funext s; simp [zyxOmega, zyxS, zyxBuildS, zyxJac, Matrix.mulVec, dotProduct, Fin.sum_univ_three]; try ring
    · simp [zyxOmega, zyxS, zyxBuildS, zyxJac, Matrix.mulVec, dotProduct, Fin.sum_univ_three]; try ring
  · refine hasDeriv_of ((cz.mul r1).add ((cy.mul sz).mul r2)) ?_ ?_
    · funext s; simp [zyxOmega, zyxS, zyxBuildS, zyxJac, Matrix.mulVec, dotProduct, Fin.sum_univ_three]; try ring
    · simp [zyxOmega, zyxS, zyxBuildS, zyxJac, Matrix.mulVec, dotProduct, Fin.sum_univ_three]; try ring
  · refine hasDeriv_of (r0.sub (sy.mul r2)) ?_ ?_
    · funext s; simp [zyxOmega, zyxS, zyxBuildS, zyxJac, Matrix.mulVec, dotProduct, Fin.sum_univ_three]; try ring
    · simp [zyxOmega, zyxS, zyxBuildS, zyxJac, Matrix.mulVec, dotProduct, Fin.sum_univ_three]; try ring

/-- Euler angles ZXY: the reported Jacobian is the derivative of the angular velocity. -/
theorem C52_zxy_jacobian : TrueJacobian zxyOmega zxyJac := by
  intro p r dp dr t h hr
  have h0 := comp_deriv h 0; have h1 := comp_deriv h 1; have h2 := comp_deriv h 2
  have r0 := comp_deriv hr 0; have r1 := comp_deriv hr 1; have r2 := comp_deriv hr 2
  have cz := h0.cos; have sz := h0.sin; have cx := h1.cos; have sx := h1.sin
  rw [hasDerivAt_pi]
  intro i
  fin_cases i
  · refine hasDeriv_of ((cz.mul r1).neg.add ((cx.mul sz).mul r2)) ?_ ?_
    · funext s; simp [zxyOmega, zxyS, zxyJac, Matrix.mulVec, dotProduct, Fin.sum_univ_three]; try ring
    · simp [zxyOmega, zxyS, zxyJac, Matrix.mulVec, dotProduct, Fin.sum_univ_three]; try ring
  · refine hasDeriv_of ((sz.mul r1).neg.sub ((cx.mul cz).mul r2)) ?_ ?_
    · funext s; simp [zxyOmega, zxyS, zxyJac, Matrix.mulVec, dotProduct, Fin.sum_univ_three]; try ring
    · simp [zxyOmega, zxyS, zxyJac, Matrix.mulVec, dotProduct, Fin.sum_univ_three]; try ring
  · refine hasDeriv_of (r0.neg.sub (sx.mul r2)) ?_ ?_
    · funext s; simp [zxyOmega, zxyS, zxyJac, Matrix.mulVec, dotProduct, Fin.sum_univ_three]; try ring
    · simp [zxyOmega, zxyS, zxyJac, Matrix.mulVec, dotProduct, Fin.sum_univ_three]; try ring

/-! ## Rodrigues parameters -/

theorem inv_deriv {p : ℝ → V3} {r : V3} {t : ℝ} (h : HasDerivAt p r t) :
    HasDerivAt (fun s => 1 / (1 + sqNorm3 (p s)))
      (-(2 * (p t 0 * r 0 + p t 1 * r 1 + p t 2 * r 2)) * (1 / (1 + sqNorm3 (p t))) ^ 2) t := by
  have h0 := comp_deriv h 0; have h1 := comp_deriv h 1; have h2 := comp_deriv h 2
  have hN := ((((h0.mul h0).add (h1.mul h1)).add (h2.mul h2)).const_add 1)
  have hpos : 0 < 1 + (p t 0 * p t 0 + p t 1 * p t 1 + p t 2 * p t 2) := by
    linarith [mul_self_nonneg (p t 0), mul_self_nonneg (p t 1), mul_self_nonneg (p t 2)]
  refine hasDeriv_of (hN.inv hpos.ne') ?_ ?_
  · funext s; simp [sqNorm3, pow_two]
  · simp [sqNorm3, pow_two]; field_simp; ring

theorem recip_mul (p : V3) : 1 / (1 + sqNorm3 p) * (1 + p 0 ^ 2 + p 1 ^ 2 + p 2 ^ 2) = 1 := by
  have hpos : 0 < 1 + sqNorm3 p := by unfold sqNorm3; positivity
  rw [show 1 + p 0 ^ 2 + p 1 ^ 2 + p 2 ^ 2 = 1 + sqNorm3 p by unfold sqNorm3; ring]
  field_simp

/-- Rodrigues parameters: the S matrix times the rates is the angular velocity of the rotation matrix. -/
theorem C52_rodrigues_rates (p : ℝ → V3) (r : V3) (t : ℝ) (h : HasDerivAt p r t) :
    AngularVelocity (fun s => erToR (p s)) ((erS (p t)).mulVec r) t := by
  have h0 := comp_deriv h 0; have h1 := comp_deriv h 1; have h2 := comp_deriv h 2
  have u := inv_deriv h
  have hu := recip_mul (p t)
  have two (q : V3) : 2 / (1 + sqNorm3 q) = 2 * (1 / (1 + sqNorm3 q)) := by ring
  apply angular_of_entries
  intro i j
  fin_cases i <;> fin_cases j
  · refine hasDeriv_of (((u.const_mul 2).mul ((h2.mul h2).add (h1.mul h1)).neg).const_add 1) ?_ ?_
    · funext s; simp [crossMx, erS, erToR, two, Matrix.mulVec, dotProduct, Fin.sum_univ_three, Matrix.vecMul, -one_div, -mul_eq_mul_left_iff]; try ring
    · simp [crossMx, erS, erToR, two, Matrix.mulVec, dotProduct, Fin.sum_univ_three, Matrix.vecMul, -one_div]
      generalize 1 / (1 + sqNorm3 (p t)) = w at *
      grind
  · refine hasDeriv_of ((u.const_mul 2).mul ((h0.mul h1).add h2)) ?_ ?_
    · funext s; simp [crossMx, erS, erToR, two, Matrix.mulVec, dotProduct, Fin.sum_univ_three, Matrix.vecMul, -one_div, -mul_eq_mul_left_iff]; try ring
    · simp [crossMx, erS, erToR, two, Matrix.mulVec, dotProduct, Fin.sum_univ_three, Matrix.vecMul, -one_div]
      generalize 1 / (1 + sqNorm3 (p t)) = w at *
      grind
  · refine hasDeriv_of ((u.const_mul 2).mul ((h0.mul h2).sub h1)) ?_ ?_
    · funext s; simp [crossMx, erS, erToR, two, Matrix.mulVec, dotProduct, Fin.sum_univ_three, Matrix.vecMul, -one_div, -mul_eq_mul_left_iff]; try ring
    · simp [crossMx, erS, erToR, two, Matrix.mulVec, dotProduct, Fin.sum_univ_three, Matrix.vecMul, -one_div]
      generalize 1 / (1 + sqNorm3 (p t)) = w at *
      grind
  · refine hasDeriv_of ((u.const_mul 2).mul ((h0.mul h1).sub h2)) ?_ ?_
    · funext s; simp [crossMx, erS, erToR, two, Matrix.mulVec, dotProduct, Fin.sum_univ_three, Matrix.vecMul, -one_div, -mul_eq_mul_left_iff]; try ring
    · simp [crossMx, erS, erToR, two, Matrix.mulVec, dotProduct, Fin.sum_univ_three, Matrix.vecMul, -one_div]
      generalize 1 / (1 + sqNorm3 (p t)) = w at *
      grind
  · refine hasDeriv_of (((u.const_mul 2).mul ((h2.mul h2).add (h0.mul h0)).neg).const_add 1) ?_ ?_
    · funext s; simp [crossMx, erS, erToR, two, Matrix.mulVec, dotProduct, Fin.sum_univ_three, Matrix.vecMul, -one_div, -mul_eq_mul_left_iff]; try ring
    · simp [crossMx, erS, erToR, two, Matrix.mulVec, dotProduct, Fin.sum_univ_three, Matrix.vecMul, -one_div]
      generalize 1 / (1 + sqNorm3 (p t)) = w at *
      grind
  · refine hasDeriv_of ((u.const_mul 2).mul ((h1.mul h2).add h0)) ?_ ?_
    · funext s; simp [crossMx, erS, erToR, two, Matrix.mulVec, dotProduct, Fin.sum_univ_three, Matrix.vecMul, -one_div, -mul_eq_mul_left_iff]; try ring
    · simp [crossMx, erS, erToR, two, Matrix.mulVec, dotProduct, Fin.sum_univ_three, Matrix.vecMul, -one_div]
      generalize 1 / (1 + sqNorm3 (p t)) = w at *
      grind
  · refine hasDeriv_of ((u.const_mul 2).mul ((h0.mul h2).add h1)) ?_ ?_
    · funext s; simp [crossMx, erS, erToR, two, Matrix.mulVec, dotProduct, Fin.sum_univ_three, Matrix.vecMul, -one_div, -mul_eq_mul_left_iff]; try ring
    · simp [crossMx, erS, erToR, two, Matrix.mulVec, dotProduct, Fin.sum_univ_three, Matrix.vecMul, -one_div]
      generalize 1 / (1 + sqNorm3 (p t)) = w at *
      grind
  · refine hasDeriv_of ((u.const_mul 2).mul ((h1.mul h2).sub h0)) ?_ ?_
    · funext s; simp [crossMx, erS, erToR, two, Matrix.mulVec, dotProduct, Fin.sum_univ_three, Matrix.vecMul, -one_div, -mul_eq_mul_left_iff]; try ring
    · simp [crossMx, erS, erToR, two, Matrix.mulVec, dotProduct, Fin.sum_univ_three, Matrix.vecMul, -one_div]
      generalize 1 / (1 + sqNorm3 (p t)) = w at *
      grind
  · refine hasDeriv_of (((u.const_mul 2).mul ((h1.mul h1).add (h0.mul h0)).neg).const_add 1) ?_ ?_
    · funext s; simp [crossMx, erS, erToR, two, Matrix.mulVec, dotProduct, Fin.sum_univ_three, Matrix.vecMul, -one_div, -mul_eq_mul_left_iff]; try ring
    · simp [crossMx, erS, erToR, two, Matrix.mulVec, dotProduct, Fin.sum_univ_three, Matrix.vecMul, -one_div]
      generalize 1 / (1 + sqNorm3 (p t)) = w at *
      grind

/-- Rodrigues parameters: the reported Jacobian is the derivative of the angular velocity. -/
theorem C52_rodrigues_jacobian : TrueJacobian erOmega erJac := by
  intro p r dp dr t h hr
  have h0 := comp_deriv h 0; have h1 := comp_deriv h 1; have h2 := comp_deriv h 2
  have r0 := comp_deriv hr 0; have r1 := comp_deriv hr 1; have r2 := comp_deriv hr 2
  have u := (inv_deriv h).const_mul 2
  rw [hasDerivAt_pi]
  intro i
  fin_cases i
  · refine hasDeriv_of (u.mul ((r0.add (h2.mul r1)).sub (h1.mul r2))) ?_ ?_
    · funext s; simp [erOmega, erJac, crossMx, Matrix.mulVec, dotProduct, Fin.sum_univ_three, Matrix.vecMulVec, Matrix.vecHead, Matrix.vecTail, -one_div, -mul_eq_mul_left_iff]; try ring
    · simp [erOmega, erJac, crossMx, Matrix.mulVec, dotProduct, Fin.sum_univ_three, Matrix.vecMulVec, Matrix.vecHead, Matrix.vecTail, -one_div, -mul_eq_mul_left_iff]; ring
  · refine hasDeriv_of (u.mul ((r1.sub (h2.mul r0)).add (h0.mul r2))) ?_ ?_
    · funext s; simp [erOmega, erJac, crossMx, Matrix.mulVec, dotProduct, Fin.sum_univ_three, Matrix.vecMulVec, Matrix.vecHead, Matrix.vecTail, -one_div, -mul_eq_mul_left_iff]; try ring
    · simp [erOmega, erJac, crossMx, Matrix.mulVec, dotProduct, Fin.sum_univ_three, Matrix.vecMulVec, Matrix.vecHead, Matrix.vecTail, -one_div, -mul_eq_mul_left_iff]; ring
  · refine hasDeriv_of (u.mul ((r2.add (h1.mul r0)).sub (h0.mul r1))) ?_ ?_
    · funext s; simp [erOmega, erJac, crossMx, Matrix.mulVec, dotProduct, Fin.sum_univ_three, Matrix.vecMulVec, Matrix.vecHead, Matrix.vecTail, -one_div, -mul_eq_mul_left_iff]; try ring
    · simp [erOmega, erJac, crossMx, Matrix.mulVec, dotProduct, Fin.sum_univ_three, Matrix.vecMulVec, Matrix.vecHead, Matrix.vecTail, -one_div, -mul_eq_mul_left_iff]; ring

/-! ## Rotation vectors -/

theorem norm_deriv {p : ℝ → V3} {r : V3} {t : ℝ} (h : HasDerivAt p r t) (hn : 0 < norm3 (p t)) :
    HasDerivAt (fun s => norm3 (p s)) ((p t 0 * r 0 + p t 1 * r 1 + p t 2 * r 2) * (1 / norm3 (p t))) t := by
  have h0 := comp_deriv h 0; have h1 := comp_deriv h 1; have h2 := comp_deriv h 2
  have hN := (((h0.fun_pow 2).fun_add (h1.fun_pow 2)).fun_add (h2.fun_pow 2))
  have hne : p t 0 ^ 2 + p t 1 ^ 2 + p t 2 ^ 2 ≠ 0 := by
    rw [← norm3_sq]; positivity
  refine (hN.sqrt hne).congr_deriv ?_
  unfold norm3
  field_simp
  ring

/-- Rotation vectors longer than the threshold `1e-14`: the S matrix times the rates is the angular velocity
of the rotation matrix. -/
theorem C52_rotation_vector_rates_partial (p : ℝ → V3) (r : V3) (t : ℝ) (h : HasDerivAt p r t)
    (hn : 1 / 10 ^ 14 < norm3 (p t)) : AngularVelocity (fun s => rvToR (p s)) ((rvS (p t)).mulVec r) t := by
  have h0 := comp_deriv h 0; have h1 := comp_deriv h 1; have h2 := comp_deriv h 2
  have hpos : 0 < norm3 (p t) := lt_trans (by norm_num) hn
  have nd := norm_deriv h hpos
  have md : HasDerivAt (fun s => 1 / norm3 (p s))
      (-((p t 0 * r 0 + p t 1 * r 1 + p t 2 * r 2) * (1 / norm3 (p t))) * (1 / norm3 (p t)) ^ 2) t := by
    refine hasDeriv_of (nd.inv hpos.ne') ?_ ?_
    · funext s; simp
    · field_simp
  have sd := nd.sin
  have cd := nd.cos
  have e0 := md.fun_mul h0; have e1 := md.fun_mul h1; have e2 := md.fun_mul h2
  have hev : (fun s => rvToR (p s)) =ᶠ[nhds t] fun s => axisAngleMx (norm3 (p s)) ((1 / norm3 (p s)) • p s) := by
    filter_upwards [nd.continuousAt.eventually (eventually_gt_nhds hn)] with s hs
    unfold rvToR
    simp only
    rw [if_neg (by linarith)]
  have hω : (rvS (p t)).mulVec r = ((1 : M3) + (-((1 - cos (norm3 (p t))) * (1 / norm3 (p t)))) •
      crossMx ((1 / norm3 (p t)) • p t) + (1 - sin (norm3 (p t)) * (1 / norm3 (p t))) •
      (crossMx ((1 / norm3 (p t)) • p t) * crossMx ((1 / norm3 (p t)) • p t))).mulVec r := by
    unfold rvS
    simp only
    rw [if_neg (by linarith)]
    have hs2 : cos (norm3 (p t)) = 1 - 2 * sin (norm3 (p t) * (1 / 2)) ^ 2 := by
      have := cos_two_mul (norm3 (p t) * (1 / 2))
      rw [cos_sq', show 2 * (norm3 (p t) * (1 / 2)) = norm3 (p t) by ring] at this
      rw [this]; ring
    congr 4
    · rw [hs2]; ring
    · field_simp
  have hu : (1 / norm3 (p t)) ^ 2 * (p t 0 ^ 2 + p t 1 ^ 2 + p t 2 ^ 2) = 1 := by
    rw [← norm3_sq]; field_simp
  have hsc := sin_sq_add_cos_sq (norm3 (p t))
  have main : AngularVelocity (fun s => axisAngleMx (norm3 (p s)) ((1 / norm3 (p s)) • p s))
      ((rvS (p t)).mulVec r) t := by
    rw [hω]
    apply angular_of_entries
    intro i j
    fin_cases i <;> fin_cases j
    · refine ((e0.fun_mul e0).fun_add (cd.fun_mul ((e0.fun_mul e0).const_sub 1))).congr_deriv ?_
      simp [axisAngleMx, crossMx, Matrix.mulVec, dotProduct, Fin.sum_univ_three, Matrix.vecMul, Matrix.one_apply, -one_div]
      generalize 1 / norm3 (p t) = m at *
      generalize sin (norm3 (p t)) = S at *
      generalize cos (norm3 (p t)) = c at *
      grind
    · refine (((e0.fun_mul e1).fun_sub ((cd.fun_mul e0).fun_mul e1)).fun_add (sd.fun_mul e2)).congr_deriv ?_
      simp [axisAngleMx, crossMx, Matrix.mulVec, dotProduct, Fin.sum_univ_three, Matrix.vecMul, Matrix.one_apply, -one_div]
      generalize 1 / norm3 (p t) = m at *
      generalize sin (norm3 (p t)) = S at *
      generalize cos (norm3 (p t)) = c at *
      grind
    · refine (((e0.fun_mul e2).fun_sub ((cd.fun_mul e0).fun_mul e2)).fun_sub (sd.fun_mul e1)).congr_deriv ?_
      simp [axisAngleMx, crossMx, Matrix.mulVec, dotProduct, Fin.sum_univ_three, Matrix.vecMul, Matrix.one_apply, -one_div]
      generalize 1 / norm3 (p t) = m at *
      generalize sin (norm3 (p t)) = S at *
      generalize cos (norm3 (p t)) = c at *
      grind
    · refine (((e0.fun_mul e1).fun_sub ((cd.fun_mul e0).fun_mul e1)).fun_sub (sd.fun_mul e2)).congr_deriv ?_
      simp [axisAngleMx, crossMx, Matrix.mulVec, dotProduct, Fin.sum_univ_three, Matrix.vecMul, Matrix.one_apply, -one_div]
      generalize 1 / norm3 (p t) = m at *
      generalize sin (norm3 (p t)) = S at *
      generalize cos (norm3 (p t)) = c at *
      grind
    · refine ((e1.fun_mul e1).fun_add (cd.fun_mul ((e1.fun_mul e1).const_sub 1))).congr_deriv ?_
      simp [axisAngleMx, crossMx, Matrix.mulVec, dotProduct, Fin.sum_univ_three, Matrix.vecMul, Matrix.one_apply, -one_div]
      generalize 1 / norm3 (p t) = m at *
      generalize sin (norm3 (p t)) = S at *
      generalize cos (norm3 (p t)) = c at *
      grind
    · refine (((e1.fun_mul e2).fun_sub ((cd.fun_mul e1).fun_mul e2)).fun_add (sd.fun_mul e0)).congr_deriv ?_
      simp [axisAngleMx, crossMx, Matrix.mulVec, dotProduct, Fin.sum_univ_three, Matrix.vecMul, Matrix.one_apply, -one_div]
      generalize 1 / norm3 (p t) = m at *
      generalize sin (norm3 (p t)) = S at *
      generalize cos (norm3 (p t)) = c at *
      grind
    · refine (((e0.fun_mul e2).fun_sub ((cd.fun_mul e0).fun_mul e2)).fun_add (sd.fun_mul e1)).congr_deriv ?_
      simp [axisAngleMx, crossMx, Matrix.mulVec, dotProduct, Fin.sum_univ_three, Matrix.vecMul, Matrix.one_apply, -one_div]
      generalize 1 / norm3 (p t) = m at *
      generalize sin (norm3 (p t)) = S at *
      generalize cos (norm3 (p t)) = c at *
      grind
    · refine (((e1.fun_mul e2).fun_sub ((cd.fun_mul e1).fun_mul e2)).fun_sub (sd.fun_mul e0)).congr_deriv ?_
      simp [axisAngleMx, crossMx, Matrix.mulVec, dotProduct, Fin.sum_univ_three, Matrix.vecMul, Matrix.one_apply, -one_div]
      generalize 1 / norm3 (p t) = m at *
      generalize sin (norm3 (p t)) = S at *
      generalize cos (norm3 (p t)) = c at *
      grind
    · refine ((e2.fun_mul e2).fun_add (cd.fun_mul ((e2.fun_mul e2).const_sub 1))).congr_deriv ?_
      simp [axisAngleMx, crossMx, Matrix.mulVec, dotProduct, Fin.sum_univ_three, Matrix.vecMul, Matrix.one_apply, -one_div]
      generalize 1 / norm3 (p t) = m at *
      generalize sin (norm3 (p t)) = S at *
      generalize cos (norm3 (p t)) = c at *
      grind
  intro v i
  have he : rvToR (p t) = axisAngleMx (norm3 (p t)) ((1 / norm3 (p t)) • p t) := hev.eq_of_nhds
  have := main v i
  simp only [he]
  refine this.congr_of_eventuallyEq ?_
  filter_upwards [hev] with s hs
  rw [hs]

/-- A curve with constant rates `r` through `p`: it meets the hypothesis of the theorems about rates. -/
theorem line_deriv (p r : V3) (t : ℝ) : HasDerivAt (fun s => p + s • r) r t := by
  have := ((hasDerivAt_id t).smul_const r).const_add p
  simpa using this

example : AngularVelocity (fun s => yprToR (![1, 2, 3] + s • ![4, 5, 6])) ((yprS (![1, 2, 3] + (2 : ℝ) • ![4, 5, 6])).mulVec
    ![4, 5, 6]) 2 := C52_ypr_rates _ _ _ (line_deriv _ _ _)

example : AngularVelocity (fun s => rvToR (![1, 0, 0] + s • ![4, 5, 6])) ((rvS (![1, 0, 0] + (0 : ℝ) • ![4, 5, 6])).mulVec
    ![4, 5, 6]) 0 := by
  refine C52_rotation_vector_rates_partial _ _ _ (line_deriv _ _ _) ?_
  simp [norm3]
  norm_num

/-- The yaw alone turning at unit speed gives the angular velocity with third component -1 (sign convention of the
library): the hypothesis and the conclusion on a case that can be checked by hand. -/
example : (yprS ![0, 0, 0]).mulVec ![1, 0, 0] = ![0, 0, -1] := by
  ext i; fin_cases i <;> simp [yprS, yprBuildS, Matrix.mulVec, dotProduct, Fin.sum_univ_three]

end Kalibr.Kin
