import Verif.Camera.DistProps
import Mathlib.Analysis.SpecialFunctions.Trigonometric.ArctanDeriv
import Mathlib.Analysis.SpecialFunctions.Trigonometric.Bounds
import Mathlib.Analysis.Real.Pi.Bounds

/-! C55: the Jacobian of the field-of-view distortion with respect to its parameter. -/

namespace Kalibr.Camera

open Real

/-- The field-of-view distortion as a family over its parameter vector. -/
noncomputable def fovOf (k : Fin 1 → ℝ) : Distortion 1 := fov (k 0)

/-- **C55, field-of-view distortion, parameter.** Outside the disc in which the formula for small radii is used, the
Jacobian with respect to `w` is the derivative. -/
theorem C55_fov_parameters_partial (k : Fin 1 → ℝ) (y : V2) (hw : 1 / 10 ^ 5 < k 0 ^ 2) (hc : cos (k 0 / 2) ≠ 0)
    (hy : 1 / 10 ^ 5 ≤ y 0 ^ 2 + y 1 ^ 2) : ParamJacobianCorrect fovOf k y := by
  have hn : norm2 y * norm2 y = y 0 ^ 2 + y 1 ^ 2 := by rw [← sq, norm2_sq]; ring
  rw [← hn] at hy
  have hpos : 0 < norm2 y := by
    rcases (norm2_nonneg y).eq_or_lt with e | e
    · rw [← e] at hy; norm_num at hy
    · exact e
  have hw0 : k 0 ≠ 0 := by intro e; rw [e] at hw; norm_num at hw
  have hnw : ¬ k 0 * k 0 < 1 / 10 ^ 5 := by rw [← sq]; exact not_lt.2 hw.le
  have hev : ∀ᶠ z : Fin 1 → ℝ in nhds k, 1 / 10 ^ 5 < z 0 ^ 2 :=
    continuousAt_const.eventually_lt ((continuous_apply 0).pow 2).continuousAt hw
  refine ⟨fovParamJ (k 0) y, rfl, isJacobianAt_iff.2 fun i => ?_⟩
  refine GradAt.congr_of_eventuallyEq
    (g := fun z : Fin 1 → ℝ => arctan (2 * tan (z 0 / 2) * norm2 y) / (norm2 y * z 0) * y i) ?_ ?_
  · have c := gradAt_coord (x := k) 0
    have K (c : ℝ) := gradAt_const (x := k) c
    have ht : HasDerivAt (fun w : ℝ => tan (w / 2)) (1 / cos (k 0 / 2) ^ 2 * (1 / 2)) (k 0) :=
      HasDerivAt.comp (h₂ := tan) (h := fun w => w / 2) (k 0) (Real.hasDerivAt_tan hc) ((hasDerivAt_id' (k 0)).div_const 2)
    have htan := GradAt.comp ht c
    have ha := GradAt.comp (Real.hasDerivAt_arctan (2 * tan (k 0 / 2) * norm2 y)) (((K 2).mul htan).mul (K (norm2 y)))
    have hd := (ha.div ((K (norm2 y)).mul c) (mul_ne_zero hpos.ne' hw0)).mul (K (y i))
    refine hd.congr ?_
    have h3 : 1 + (2 * tan (k 0 / 2) * norm2 y) ^ 2 ≠ 0 := by positivity
    have hs : 1 / cos (k 0 / 2) ^ 2 = tan (k 0 / 2) ^ 2 + 1 := by
      rw [Real.tan_eq_sin_div_cos]
      have := Real.sin_sq_add_cos_sq (k 0 / 2)
      field_simp
      linarith
    rw [hs]
    funext j
    simp only [fovParamJ, if_neg hnw, if_neg (not_lt.2 hy)]
    clear ha hd ht htan hs
    generalize arctan (2 * tan (k 0 / 2) * norm2 y) = A
    generalize tan (k 0 / 2) = T at *
    have h4 : 4 * (T * T) * norm2 y * norm2 y + 1 ≠ 0 := by convert h3 using 1; ring
    generalize norm2 y = r at *
    generalize k 0 = w at *
    fin_cases j
    fin_cases i <;> simp <;> field_simp <;> ring
  · filter_upwards [hev] with z hz
    simp only [fovOf, fov, fovDistort]
    rw [fov_branch (by rw [← sq]; exact hz.le) hy]; simp

/-- **C55 fails for the parameter of the field-of-view distortion near the image centre:** for every parameter the class
accepts other than zero, the centre does not move with `w`, and yet both entries of its Jacobian are positive. -/
theorem C55_fov_parameters_counterexample (k : Fin 1 → ℝ) (hk : 1 / 2 ≤ k 0) (hk' : k 0 ≤ 3 / 2) :
    (∀ w, (fov w).distort 0 = 0) ∧ (∃ J, (fovOf k).paramJ 0 = some J ∧ 0 < J 0 0 ∧ 0 < J 1 0) ∧
      ¬ ParamJacobianCorrect fovOf k 0 := by
  have h0 : ∀ w, (fov w).distort 0 = 0 := fun w => by simp [fov, fovDistort]
  have hc : 0 < cos (k 0 / 2) := Real.cos_pos_of_mem_Ioo ⟨by linarith [Real.pi_gt_three], by linarith [Real.pi_gt_three]⟩
  have hJ : (fovOf k).paramJ 0 = some (fovParamJ (k 0) 0) := rfl
  have hpos : ∀ i, 0 < fovParamJ (k 0) 0 i 0 := by
    intro i
    have h1 : ¬ k 0 * k 0 < 1 / 10 ^ 5 := by nlinarith
    have h2 : norm2 0 * norm2 0 < 1 / 10 ^ 5 := by simp [norm2]
    simp only [fovParamJ, if_neg h1, if_pos h2]
    have := Real.sin_lt (x := k 0) (by linarith)
    simp only [Matrix.smul_apply, Matrix.of_apply, smul_eq_mul, mul_one]
    have : 0 < k 0 := by linarith
    have : 0 < k 0 - sin (k 0) := by linarith
    positivity
  refine ⟨h0, ⟨_, hJ, hpos 0, hpos 1⟩, ?_⟩
  rintro ⟨J, h1, h2⟩
  rw [hJ, Option.some.injEq] at h1
  subst h1
  have e : (fun z : Fin 1 → ℝ => (fovOf z).distort 0) = fun _ => 0 := by funext z; exact h0 _
  rw [e] at h2
  have h3 := HasFDerivAt.unique h2 (hasFDerivAt_const (0 : V2) k)
  have h4 := congrArg (fun L : (Fin 1 → ℝ) →L[ℝ] V2 => L (fun _ => 1) 0) h3
  simp [Matrix.mulVec, dotProduct] at h4
  exact (hpos 0).ne' h4

/-- The hypotheses hold at the default parameter for a point at the border of the image. -/
example : ParamJacobianCorrect fovOf ![1] ![1, 1 / 2] :=
  C55_fov_parameters_partial _ _ (by simp; norm_num)
    (Real.cos_pos_of_mem_Ioo ⟨by simp; linarith [Real.pi_gt_three], by simp; linarith [Real.pi_gt_three]⟩).ne'
    (by simp; norm_num)

end Kalibr.Camera
