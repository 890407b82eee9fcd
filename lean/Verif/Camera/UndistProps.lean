import Verif.Camera.DistProps
import Mathlib.Analysis.Real.Pi.Bounds
import Mathlib.Analysis.SpecialFunctions.Trigonometric.Bounds

/-!
Undistortion (C60), the remaining distortion Jacobian (C55), and where undistortion inverts distortion exactly.
-/

namespace Kalibr.Camera

open Real

set_option linter.unusedSimpArgs false

/-! ### Field of view: parameter Jacobian -/

/-- **C55, field-of-view distortion.** The Jacobian with respect to w is the derivative, except at the two values of w
where the formula switches and except for points close to the image centre. -/
theorem C55_fov_parameter_partial (w : Fin 1 → ℝ) (y : V2) (hc : cos (w 0 / 2) ≠ 0)
    (h : w 0 ^ 2 < 1 / 10 ^ 5 ∨ (1 / 10 ^ 5 < w 0 ^ 2 ∧ 1 / 10 ^ 5 ≤ y 0 ^ 2 + y 1 ^ 2)) :
    ParamJacobianCorrect (fun w => fov (w 0)) w y := by
  refine ⟨fovParamJ (w 0) y, rfl, isJacobianAt_iff.2 fun i => ?_⟩
  have hn : norm2 y * norm2 y = y 0 ^ 2 + y 1 ^ 2 := by rw [← sq, norm2_sq]; ring
  rw [← hn] at h
  have hcont : Continuous fun v : Fin 1 → ℝ => v 0 * v 0 := by fun_prop
  rcases h with h | ⟨h, hy⟩
  · rw [sq] at h
    have hev : ∀ᶠ v in nhds w, v 0 * v 0 < 1 / 10 ^ 5 := hcont.continuousAt.eventually (gt_mem_nhds h)
    refine GradAt.congr_of_eventuallyEq (g := fun _ => y i) ?_ ?_
    · refine (gradAt_const _).congr ?_
      funext j
      simp only [fovParamJ, if_pos h]
      simp
    · filter_upwards [hev] with v hv
      simp only [fov, fovDistort, fovFactor, if_pos hv]; simp
  · rw [sq] at h
    have hev : ∀ᶠ v in nhds w, 1 / 10 ^ 5 < v 0 * v 0 := hcont.continuousAt.eventually (lt_mem_nhds h)
    have hpos : 0 < norm2 y := by
      rcases (norm2_nonneg y).eq_or_lt with e | e
      · rw [← e] at hy; norm_num at hy
      · exact e
    have hw0 : w 0 ≠ 0 := by intro e; rw [e] at h; norm_num at h
    refine GradAt.congr_of_eventuallyEq
      (g := fun v => arctan (2 * tan (v 0 / 2) * norm2 y) / (norm2 y * v 0) * y i) ?_ ?_
    · have K (c : ℝ) := gradAt_const (x := w) c
      have c0 := gradAt_coord (x := w) 0
      have hd : HasDerivAt (fun s : ℝ => 2 * tan (s / 2) * norm2 y) (1 / cos (w 0 / 2) ^ 2 * norm2 y) (w 0) := by
        have := (((hasDerivAt_tan hc).comp (w 0) ((hasDerivAt_id (w 0)).div_const 2)).const_mul 2).mul_const (norm2 y)
        refine this.congr_deriv ?_
        ring
      have ha := GradAt.comp ((Real.hasDerivAt_arctan (2 * tan (w 0 / 2) * norm2 y)).comp (w 0) hd) c0
      have hg := (ha.div ((K (norm2 y)).mul c0) (mul_ne_zero hpos.ne' hw0)).mul (K (y i))
      have h3 : 1 + (2 * tan (w 0 / 2) * norm2 y) ^ 2 ≠ 0 := by positivity
      have hcos : 1 / cos (w 0 / 2) ^ 2 = 1 + tan (w 0 / 2) ^ 2 := by
        rw [Real.tan_eq_sin_div_cos]; field_simp; rw [add_comm]; exact (Real.sin_sq_add_cos_sq _).symm
      refine hg.congr ?_
      funext j
      rw [hcos]
      simp only [fovParamJ, if_neg (not_lt.2 h.le), if_neg (not_lt.2 hy), Function.comp]
      clear ha hg hd hcos
      generalize arctan (2 * tan (w 0 / 2) * norm2 y) = A
      generalize tan (w 0 / 2) = T at *
      have h4 : 4 * (T * T) * norm2 y * norm2 y + 1 ≠ 0 := by convert h3 using 1; ring
      generalize norm2 y = r at *
      generalize w 0 = ww at *
      fin_cases i <;> fin_cases j <;> simp <;> field_simp <;> ring
    · filter_upwards [hev] with v hv
      simp only [fov, fovDistort]
      rw [fov_branch hv.le hy]; simp

/-- **C55 fails near the image centre for the field-of-view distortion:** the centre does not move when w changes, but
the Jacobian with respect to w is not zero. -/
theorem C55_fov_parameter_counterexample : ¬ ParamJacobianCorrect (fun w => fov (w 0)) ![1] 0 := by
  rintro ⟨J, hJ, h⟩
  have h0 : IsJacobianAt (fun w : Fin 1 → ℝ => (fov (w 0)).distort 0) 0 ![1] := by
    refine isJacobianAt_iff.2 fun i => ?_
    have : (fun w : Fin 1 → ℝ => (fov (w 0)).distort 0 i) = fun _ => 0 := by
      funext w; simp [fov, fovDistort]
    rw [this]; exact gradAt_const 0
  have e := h.unique h0
  simp only [fov, Option.some.injEq] at hJ
  have := congrFun (congrFun (hJ.trans e) 0) 0
  have hn : norm2 0 = 0 := by simp [norm2]
  simp only [fovParamJ, hn] at this
  norm_num at this
  have hs : sin 1 < 1 := Real.sin_lt (by norm_num)
  have hc : 0 < cos (1 / 2) := Real.cos_pos_of_mem_Ioo ⟨by linarith [pi_gt_three], by linarith [pi_gt_three]⟩
  rcases this with h | h
  · linarith
  · exact hc.ne' h

/-! ### Undistortion -/

/-- Running the loop for `m` and then for `n` more iterations. -/
theorem radtanLoop_add (k : V4) (y : V2) (m : ℕ) : ∀ (yb u : V2), radtanLoop k y m yb = some u →
    ∀ n, radtanLoop k y (m + n) yb = some u ∨ radtanLoop k y (m + n) yb = radtanLoop k y n u := by
  induction m with
  | zero => intro yb u h n; simp [radtanLoop] at h; subst h; right; rw [Nat.zero_add]
  | succ m ih =>
    intro yb u h n
    rw [show m + 1 + n = (m + n) + 1 by omega]
    simp only [radtanLoop] at h ⊢
    split_ifs at h ⊢ with h1 h2
    · left; exact h
    · exact ih _ _ h n

theorem radtanLoop_fixed (k : V4) (y u : V2) (hu : radtanDistort k u = y) (hd : (radtanJ k u).det ≠ 0) (n : ℕ) :
    radtanLoop k y n u = some u := by
  induction n with
  | zero => rfl
  | succ n ih =>
    simp only [radtanLoop, hu, sub_self, Matrix.mulVec_zero, add_zero, if_neg hd]
    simp

/-- **C60, radial-tangential distortion.** If after some number of iterations the loop stands at a point whose distortion
is the measurement, undistort returns that point, provided the distortion is locally invertible there. -/
theorem C60_radtan_partial (k : V4) (y u : V2) (m : ℕ) (hm : m ≤ 5) (hr : radtanLoop k y m y = some u)
    (hu : radtanDistort k u = y) (hd : (radtanJ k u).det ≠ 0) : (radtan k).undistort y = some u := by
  change radtanUndistort k y = some u
  unfold radtanUndistort
  obtain ⟨n, hn⟩ := Nat.exists_eq_add_of_le hm
  rw [hn]
  rcases radtanLoop_add k y m y u hr n with h | h
  · exact h
  · rw [h, radtanLoop_fixed k y u hu hd]

theorem radtanJ_zero (k : V4) : (radtanJ k 0).det = 1 := by
  simp [radtanJ, Matrix.det_fin_two]

theorem radtanDistort_zero (k : V4) : radtanDistort k 0 = 0 := by
  funext i; fin_cases i <;> simp [radtanDistort]

/-- **C60, radial-tangential distortion.** The image centre is undistorted to itself, whatever the parameters. -/
theorem C60_radtan_centre (k : V4) : (radtan k).undistort 0 = some 0 :=
  C60_radtan_partial k 0 0 0 (by omega) rfl (radtanDistort_zero k) (by rw [radtanJ_zero]; norm_num)

/-- The hypotheses of `C60_radtan_partial` with an actual distortion: k1 = 1, k2 = -1 leave (0, 1) in place, and the
distortion is invertible there. -/
example : (radtan ![1, -1, 0, 0]).undistort ![0, 1] = some ![0, 1] :=
  C60_radtan_partial _ _ _ 0 (by omega) rfl
    (by funext i; fin_cases i <;> simp [radtanDistort] <;> norm_num)
    (by simp [radtanJ, Matrix.det_fin_two]; norm_num)

/-- **C60 fails where the distortion folds:** with k1 = 1/2 and k2 = -1/2 the point (1, 0) is left in place by the
distortion, but undistort divides by a singular matrix there. -/
theorem C60_radtan_counterexample :
    (radtan ![1 / 2, -1 / 2, 0, 0]).distort ![1, 0] = ![1, 0] ∧
      (radtan ![1 / 2, -1 / 2, 0, 0]).undistort ![1, 0] = none := by
  have hd : (radtanJ ![1 / 2, -1 / 2, 0, 0] ![1, 0]).det = 0 := by
    simp [radtanJ, Matrix.det_fin_two]; norm_num
  refine ⟨?_, ?_⟩
  · funext i; fin_cases i <;> simp [radtan, radtanDistort] <;> norm_num
  · simp only [radtan, radtanUndistort, radtanLoop, hd, reduceIte]

/-- Without distortion parameters the radial-tangential distortion is undone exactly. -/
theorem radtan_zero (y : V2) : radtanDistort 0 y = y ∧ radtanUndistort 0 y = some y := by
  have h : radtanDistort 0 y = y := by funext i; fin_cases i <;> simp [radtanDistort]
  refine ⟨h, C60_radtan_partial 0 y y 0 (by omega) rfl h ?_⟩
  simp [radtanJ, Matrix.det_fin_two]

/-! ### Equidistant -/

theorem eqLoop_add (k : V4) (td : ℝ) (m : ℕ) : ∀ (t u : ℝ), eqLoop k td m t = some u →
    ∀ n, eqLoop k td (m + n) t = eqLoop k td n u := by
  induction m with
  | zero => intro t u h n; simp [eqLoop] at h; subst h; rw [Nat.zero_add]
  | succ m ih =>
    intro t u h n
    rw [show m + 1 + n = (m + n) + 1 by omega]
    simp only [eqLoop] at h ⊢
    split_ifs at h ⊢ with h1
    exact ih _ _ h n

theorem eqLoop_fixed (k : V4) (td t : ℝ) (ht : t * eqPoly k t = td) (h0 : eqPoly k t ≠ 0) (n : ℕ) :
    eqLoop k td n t = some t := by
  induction n with
  | zero => rfl
  | succ n ih =>
    simp only [eqLoop, if_neg h0]
    rw [← ht, mul_div_assoc, div_self h0, mul_one, ht]; exact ih

theorem norm2_smul (c : ℝ) (y : V2) : norm2 (c • y) = |c| * norm2 y := by
  unfold norm2
  rw [← Real.sqrt_sq_eq_abs, ← Real.sqrt_mul (sq_nonneg c)]
  congr 1; simp; ring

/-- **C60, equidistant distortion.** If after some number of iterations the loop stands at an angle `t` (strictly between
0 and 90 degrees) whose distorted angle is the distance of the measurement from the centre, then undistort returns a
point whose distortion is the measurement. -/
theorem C60_equidistant_partial (k : V4) (y : V2) (t : ℝ) (m : ℕ) (hm : m ≤ 20) (hy : y ≠ 0)
    (hr : eqLoop k (√(y 0 * y 0 + y 1 * y 1)) m (√(y 0 * y 0 + y 1 * y 1)) = some t)
    (ht : t * eqPoly k t = √(y 0 * y 0 + y 1 * y 1)) (h1 : t < π / 2) (h2 : 1 / 10 ^ 8 < tan t) (h3 : 0 < t) :
    ∃ u, (equidistant k).undistort y = some u ∧ (equidistant k).distort u = y := by
  change eqLoop k (norm2 y) m (norm2 y) = some t at hr
  change t * eqPoly k t = norm2 y at ht
  have hn : 0 < norm2 y := by
    refine (norm2_nonneg y).lt_of_ne' ?_
    intro h
    have := norm2_sq y
    rw [h] at this
    apply hy
    have h0 : y 0 = 0 := by nlinarith [mul_self_nonneg (y 0), mul_self_nonneg (y 1)]
    have h1 : y 1 = 0 := by nlinarith [mul_self_nonneg (y 0), mul_self_nonneg (y 1)]
    funext i; fin_cases i
    · exact h0
    · exact h1
  have hp : eqPoly k t ≠ 0 := by intro h; rw [h, mul_zero] at ht; exact hn.ne ht
  have hloop : eqLoop k (norm2 y) 20 (norm2 y) = some t := by
    obtain ⟨n, hn⟩ := Nat.exists_eq_add_of_le hm
    rw [hn, eqLoop_add k _ m _ _ hr n, eqLoop_fixed k _ t ht hp]
  have htan : 0 < tan t := lt_trans (by norm_num) h2
  refine ⟨(tan t / norm2 y) • y, ?_, ?_⟩
  · change eqUndistort k y = _
    unfold eqUndistort
    simp only
    rw [show √(y 0 * y 0 + y 1 * y 1) = norm2 y from rfl, hloop]
    simp only [hn.ne', if_false]
    congr 1; funext i; fin_cases i <;> simp [mul_comm]
  · have hnu : norm2 ((tan t / norm2 y) • y) = tan t := by
      rw [norm2_smul, abs_of_pos (div_pos htan hn)]; field_simp
    change eqDistort k _ = _
    rw [eqDistort_of_lt k _ (by rw [hnu]; exact h2), hnu, Real.arctan_tan (by linarith) h1, ht]
    funext i
    simp; field_simp

example : ∃ u, (equidistant ![1, -1, 0, 0]).undistort ![1, 0] = some u ∧ (equidistant ![1, -1, 0, 0]).distort u = ![1, 0] := by
  have h1 : (1 : ℝ) < tan 1 := Real.lt_tan (by norm_num) (by linarith [pi_gt_three])
  refine C60_equidistant_partial _ _ 1 0 (by omega) ?_ ?_ ?_ (by linarith [pi_gt_three])
    (lt_trans (by norm_num) h1) (by norm_num)
  · intro h; have := congrFun h 0; simp at this
  · simp [eqLoop]
  · simp [eqPoly]

/-- **C60 fails at the image centre for the equidistant distortion:** the centre is left in place by the distortion, but
undistort computes 0/0. -/
theorem C60_equidistant_centre_counterexample (k : V4) :
    (equidistant k).distort 0 = 0 ∧ (equidistant k).undistort 0 = none := by
  refine ⟨?_, ?_⟩
  · funext i; fin_cases i <;> simp [equidistant, eqDistort]
  · simp only [equidistant, eqUndistort]
    have : √((0 : V2) 0 * (0 : V2) 0 + (0 : V2) 1 * (0 : V2) 1) = 0 := by simp
    rw [this]
    cases eqLoop k 0 20 0 <;> simp

/-- Without distortion coefficients the equidistant distortion is undone exactly, except at the centre. -/
theorem equidistant_zero (y : V2) (h : 1 / 10 ^ 8 < norm2 y) : eqUndistort 0 (eqDistort 0 y) = some y := by
  have hpos : 0 < norm2 y := lt_trans (by norm_num) h
  have hp (t : ℝ) : eqPoly 0 t = 1 := by simp [eqPoly]
  have ha : 0 < arctan (norm2 y) := by rw [← Real.arctan_zero]; exact Real.arctan_strictMono hpos
  have hd : eqDistort 0 y = (arctan (norm2 y) / norm2 y) • y := by
    rw [eqDistort_of_lt _ y h]; funext i; simp [hp, mul_comm]
  have hn : norm2 (eqDistort 0 y) = arctan (norm2 y) := by
    rw [hd, norm2_smul, abs_of_pos (div_pos ha hpos)]; field_simp
  have hl : eqLoop 0 (arctan (norm2 y)) 20 (arctan (norm2 y)) = some (arctan (norm2 y)) :=
    eqLoop_fixed 0 _ _ (by rw [hp, mul_one]) (by rw [hp]; norm_num) 20
  unfold eqUndistort
  simp only
  rw [show √(eqDistort 0 y 0 * eqDistort 0 y 0 + eqDistort 0 y 1 * eqDistort 0 y 1) = norm2 (eqDistort 0 y) from rfl,
    hn, hl]
  simp only [ha.ne', if_false, Real.tan_arctan, hd]
  congr 1; funext i; fin_cases i <;> simp <;> field_simp

/-! ### Field of view -/

/-- **C60, field-of-view distortion.** The image centre is undistorted to itself, and so is every point if the parameter
is zero (no distortion). -/
theorem C60_fov_centre (w : ℝ) (y : V2) : (fov w).undistort 0 = some 0 ∧ (fov 0).undistort y = some y ∧
    (fov 0).distort y = y := by
  refine ⟨?_, ?_, ?_⟩
  · simp [fov, fovUndistort]
  · simp [fov, fovUndistort]
  · simp [fov, fovDistort, fovFactor]

theorem valid_w {w : ℝ} (h1 : 1 / 2 ≤ w) (h2 : w ≤ 3 / 2) : 0 < tan (w / 2) :=
  Real.tan_pos_of_pos_of_lt_pi_div_two (by linarith) (by linarith [pi_gt_three])

/-- With a valid parameter, field-of-view undistortion inverts distortion for every point outside a small disc around the
centre whose distorted angle is at most 89 degrees. -/
theorem fov_undistort_distort {w : ℝ} (h1 : 1 / 2 ≤ w) (h2 : w ≤ 3 / 2) {y : V2} (hy : 1 / 10 ^ 5 ≤ norm2 y * norm2 y)
    (ha : arctan (2 * tan (w / 2) * norm2 y) ≤ kMaxValidAngle) : fovUndistort w (fovDistort w y) = y := by
  have hT := valid_w h1 h2
  have hpos : 0 < norm2 y := by
    rcases (norm2_nonneg y).eq_or_lt with e | e
    · rw [← e] at hy; norm_num at hy
    · exact e
  have hA : 0 < arctan (2 * tan (w / 2) * norm2 y) := by
    rw [← Real.arctan_zero]; exact Real.arctan_strictMono (by positivity)
  have hf : fovDistort w y = (arctan (2 * tan (w / 2) * norm2 y) / (norm2 y * w)) • y := by
    unfold fovDistort; rw [fov_branch (by nlinarith) hy]
  have hw : 0 < w := by linarith
  have hn : norm2 (fovDistort w y) = arctan (2 * tan (w / 2) * norm2 y) / w := by
    rw [hf, norm2_smul, abs_of_pos (by positivity)]; field_simp
  unfold fovUndistort
  simp only
  rw [hn, div_mul_cancel₀ _ hw.ne', abs_of_pos hA, if_neg (by simp; exact ⟨hT.ne', ⟨hT.ne', hpos.ne'⟩, hw.ne'⟩), if_pos ha, hf,
    Real.tan_arctan, smul_smul]
  funext i
  simp
  field_simp

/-- The other direction: a measurement of angle at most 89 degrees, whose undistorted point is outside the small disc, is
reproduced by distorting its undistortion. -/
theorem fov_distort_undistort {w : ℝ} (h1 : 1 / 2 ≤ w) (h2 : w ≤ 3 / 2) {y : V2} (ha : norm2 y * w ≤ kMaxValidAngle)
    (hy : 1 / 10 ^ 5 ≤ (tan (norm2 y * w) / (2 * tan (w / 2))) ^ 2) : fovDistort w (fovUndistort w y) = y := by
  have hT := valid_w h1 h2
  have hw : 0 < w := by linarith
  have hpos : 0 < norm2 y := by
    rcases (norm2_nonneg y).eq_or_lt with e | e
    · rw [← e] at hy; norm_num at hy
    · exact e
  have hlt : norm2 y * w < π / 2 := lt_of_le_of_lt ha (by unfold kMaxValidAngle; linarith [pi_pos])
  have htan : 0 < tan (norm2 y * w) := Real.tan_pos_of_pos_of_lt_pi_div_two (by positivity) hlt
  have hu : fovUndistort w y = (tan (norm2 y * w) / (norm2 y * (tan (w / 2) * 2))) • y := by
    unfold fovUndistort
    simp only
    rw [if_neg (by simp; exact ⟨hT.ne', hpos.ne'⟩), abs_of_pos (by positivity), if_pos ha]
  have hn : norm2 (fovUndistort w y) = tan (norm2 y * w) / (2 * tan (w / 2)) := by
    rw [hu, norm2_smul, abs_of_pos (by positivity)]; field_simp
  unfold fovDistort
  rw [fov_branch (by nlinarith) (by rw [hn, ← sq]; exact hy), hn, hu, smul_smul]
  rw [show 2 * tan (w / 2) * (tan (norm2 y * w) / (2 * tan (w / 2))) = tan (norm2 y * w) by field_simp,
    Real.arctan_tan (by nlinarith [pi_pos, mul_pos hpos hw]) hlt]
  funext i
  simp
  field_simp

example : ParamJacobianCorrect (fun w => fov (w 0)) ![1] ![1, 0] :=
  C55_fov_parameter_partial _ _
    (Real.cos_pos_of_mem_Ioo (x := (![1] : Fin 1 → ℝ) 0 / 2) ⟨by simp; linarith [pi_gt_three], by simp; linarith [pi_gt_three]⟩).ne'
    (Or.inr ⟨by norm_num, by norm_num⟩)

end Kalibr.Camera
