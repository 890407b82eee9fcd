import Verif.Camera.Distortion
import Mathlib.Analysis.SpecialFunctions.Trigonometric.ArctanDeriv
import Mathlib.Tactic.FinCases
import Mathlib.Tactic.LinearCombination

/-!
The distortion Jacobians are the derivatives of the distortion (C55, distortion part).
-/

namespace Kalibr.Camera

open Real

set_option linter.unusedSimpArgs false

/-- distort(y, J) returns a Jacobian, and it is the derivative of distort at y. -/
def PointJacobianCorrect {n : ℕ} (D : Distortion n) (y : V2) : Prop :=
  ∃ J, D.distortJ y = some J ∧ IsJacobianAt D.distort J y

/-- For a family of distortions indexed by its parameter vector: distortParameterJacobian(y, J) returns a Jacobian, and
it is the derivative of distort(y) with respect to the parameters. -/
def ParamJacobianCorrect {n : ℕ} (D : (Fin n → ℝ) → Distortion n) (k : Fin n → ℝ) (y : V2) : Prop :=
  ∃ J, (D k).paramJ y = some J ∧ IsJacobianAt (fun k' => (D k').distort y) J k

theorem grad2 {g : V2 → ℝ} {a : Fin 2 → ℝ} {b : Fin 2 → ℝ} {y : V2} (h : GradAt g a y) (h0 : a 0 = b 0)
    (h1 : a 1 = b 1) : GradAt g b y := h.congr (by funext j; fin_cases j <;> simp [h0, h1])

theorem noDistortion_point (y : V2) : PointJacobianCorrect noDistortion y :=
  ⟨1, rfl, isJacobianAt_iff.2 fun i => (gradAt_coord i).congr (by funext j; simp [Matrix.one_apply, eq_comm])⟩

theorem radtan_grad (y : V2) (k : V4) (i : Fin 2) : GradAt (fun y => radtanDistort k y i) (fun j => radtanJ k y i j) y := by
  have c0 := gradAt_coord (x := y) 0
  have c1 := gradAt_coord (x := y) 1
  have K (c : ℝ) := gradAt_const (x := y) c
  have hm := (c0.mul c0).add (c1.mul c1)
  have hr := (((K (k 0)).mul hm)).add (((K (k 1)).mul hm).mul hm)
  fin_cases i
  · refine grad2 (c0.add (((c0.mul hr).add ((K (2 * k 2)).mul (c0.mul c1))).add
      ((K (k 3)).mul (hm.add ((K 2).mul (c0.mul c0)))))) ?_ ?_ <;>
      simp [radtanJ] <;> ring
  · refine grad2 (c1.add (((c1.mul hr).add ((K (2 * k 3)).mul (c0.mul c1))).add
      ((K (k 2)).mul (hm.add ((K 2).mul (c1.mul c1)))))) ?_ ?_ <;>
      simp [radtanJ] <;> ring

/-- **C55, radial-tangential distortion.** The Jacobian with respect to the point is the derivative, everywhere. -/
theorem C55_radtan_point (k : V4) (y : V2) : PointJacobianCorrect (radtan k) y :=
  ⟨radtanJ k y, rfl, isJacobianAt_iff.2 fun i => radtan_grad y k i⟩

/-- **C55, radial-tangential distortion.** The Jacobian with respect to (k1, k2, p1, p2) is the derivative. -/
theorem C55_radtan_parameters (k : V4) (y : V2) : ParamJacobianCorrect radtan k y := by
  refine ⟨radtanParamJ y, rfl, isJacobianAt_iff.2 fun i => ?_⟩
  have c (i : Fin 4) := gradAt_coord (x := k) i
  have K (c : ℝ) := gradAt_const (x := k) c
  have hr := ((c 0).mul (K (y 0 * y 0 + y 1 * y 1))).add
    (((c 1).mul (K (y 0 * y 0 + y 1 * y 1))).mul (K (y 0 * y 0 + y 1 * y 1)))
  fin_cases i
  · refine ((K (y 0)).add ((((K (y 0)).mul hr).add (((K 2).mul (c 2)).mul (K (y 0 * y 1)))).add
      ((c 3).mul (K (y 0 * y 0 + y 1 * y 1 + 2 * (y 0 * y 0)))))).congr ?_
    funext j; fin_cases j <;> simp [radtanParamJ] <;> ring
  · refine ((K (y 1)).add ((((K (y 1)).mul hr).add (((K 2).mul (c 3)).mul (K (y 0 * y 1)))).add
      ((c 2).mul (K (y 0 * y 0 + y 1 * y 1 + 2 * (y 1 * y 1)))))).congr ?_
    funext j; fin_cases j <;> simp [radtanParamJ] <;> ring

/-! ### Equidistant -/

theorem cont_norm2 : Continuous norm2 := by
  unfold norm2
  fun_prop

theorem grad_norm2 (y : V2) (h : 0 < norm2 y) : GradAt norm2 (fun j => y j / norm2 y) y := by
  have c0 := gradAt_coord (x := y) 0
  have c1 := gradAt_coord (x := y) 1
  have h0 : y 0 * y 0 + y 1 * y 1 ≠ 0 := by
    intro h0; unfold norm2 at h; simp [h0] at h
  refine grad2 (((c0.mul c0).add (c1.mul c1)).sqrt h0) ?_ ?_ <;> simp [norm2] <;> field_simp <;> ring

theorem norm2_sq (y : V2) : norm2 y ^ 2 = y 0 * y 0 + y 1 * y 1 := by
  unfold norm2; rw [Real.sq_sqrt (by nlinarith [mul_self_nonneg (y 0), mul_self_nonneg (y 1)])]

theorem norm2_nonneg (y : V2) : 0 ≤ norm2 y := Real.sqrt_nonneg _

theorem rpow_three_half {s : ℝ} (h : 0 ≤ s) : s ^ (3 / 2 : ℝ) = √s ^ 3 := by
  rw [Real.sqrt_eq_rpow, ← Real.rpow_natCast, ← Real.rpow_mul h]; norm_num

theorem hasDeriv_eqPoly (k : V4) (t : ℝ) : HasDerivAt (fun t => t * eqPoly k t)
    (eqPoly k t + t * (2 * k 0 * t + 4 * k 1 * t ^ 3 + 6 * k 2 * t ^ 5 + 8 * k 3 * t ^ 7)) t := by
  have e : (fun t => t * eqPoly k t) = fun t => t + k 0 * t ^ 3 + k 1 * t ^ 5 + k 2 * t ^ 7 + k 3 * t ^ 9 := by
    funext t; simp only [eqPoly]; ring
  rw [e]
  have p (n : ℕ) := hasDerivAt_pow n t
  refine (((((hasDerivAt_id t).add ((p 3).const_mul (k 0))).add ((p 5).const_mul (k 1))).add
    ((p 7).const_mul (k 2))).add ((p 9).const_mul (k 3))).congr_deriv ?_
  simp only [eqPoly]; norm_num; ring

/-- **C55, equidistant distortion.** Outside the small disc where the distortion is replaced by the identity, the
generated Jacobian is the derivative. -/
theorem C55_equidistant_point_partial (k : V4) (y : V2) (h : 1 / 10 ^ 8 < √(y 0 * y 0 + y 1 * y 1)) :
    PointJacobianCorrect (equidistant k) y := by
  change 1 / 10 ^ 8 < norm2 y at h
  have hpos : 0 < norm2 y := lt_trans (by norm_num) h
  have hy : y ≠ 0 := by rintro rfl; simp [norm2] at hpos
  refine ⟨eqJ k y, by simp [equidistant, hy], isJacobianAt_iff.2 fun i => ?_⟩
  have ht := GradAt.comp (Real.hasDerivAt_arctan (norm2 y)) (grad_norm2 y hpos)
  have htd := GradAt.comp (hasDeriv_eqPoly k (arctan (norm2 y))) ht
  have hs := htd.div (grad_norm2 y hpos) hpos.ne'
  have hev : ∀ᶠ z in nhds y, 1 / 10 ^ 8 < norm2 z := cont_norm2.continuousAt.eventually (lt_mem_nhds h)
  have hall : ∀ i : Fin 2, GradAt (fun z => z i * (arctan (norm2 z) * eqPoly k (arctan (norm2 z)) / norm2 z)) _ y :=
    fun i => (gradAt_coord i).mul hs
  have h2 := norm2_sq y
  have hsq : √(norm2 y ^ 2) = norm2 y := Real.sqrt_sq hpos.le
  have hr3 : (norm2 y ^ 2) ^ (3 / 2 : ℝ) = norm2 y ^ 3 := by rw [rpow_three_half (sq_nonneg _), hsq]
  refine GradAt.congr_of_eventuallyEq (g := fun z => z i * (arctan (norm2 z) * eqPoly k (arctan (norm2 z)) / norm2 z))
    ?_ ?_
  · refine grad2 (hall i) ?_ ?_ <;> fin_cases i <;>
      simp only [eqJ, hr3, hsq, ← h2] <;> simp [eqPoly] <;> clear hev hall hs htd ht hr3 hsq <;>
      generalize arctan (norm2 y) = t <;> generalize norm2 y = r at * <;>
      generalize y 0 = u at * <;> generalize y 1 = v at * <;> generalize k 0 = a at * <;> generalize k 1 = b at * <;>
      generalize k 2 = c at * <;> generalize k 3 = d at * <;>
      field_simp <;> ring
  · filter_upwards [hev] with z hz
    have : √(z 0 * z 0 + z 1 * z 1) > 1 / 10 ^ 8 := hz
    fin_cases i <;> simp only [equidistant, eqDistort, if_pos this] <;> rfl

theorem eqDistort_of_lt (k : V4) (y : V2) (h : 1 / 10 ^ 8 < norm2 y) :
    eqDistort k y = fun i => y i * (arctan (norm2 y) * eqPoly k (arctan (norm2 y)) / norm2 y) := by
  have : √(y 0 * y 0 + y 1 * y 1) > 1 / 10 ^ 8 := h
  funext i
  fin_cases i <;> simp only [eqDistort, if_pos this] <;> rfl

/-- **C55, equidistant distortion.** The Jacobian with respect to (k1, k2, k3, k4) is the derivative, outside the same
disc. -/
theorem C55_equidistant_parameters_partial (k : V4) (y : V2) (h : 1 / 10 ^ 8 < √(y 0 * y 0 + y 1 * y 1)) :
    ParamJacobianCorrect equidistant k y := by
  change 1 / 10 ^ 8 < norm2 y at h
  have hpos : 0 < norm2 y := lt_trans (by norm_num) h
  have hy : y ≠ 0 := by rintro rfl; simp [norm2] at hpos
  refine ⟨eqParamJ y, by simp [equidistant, hy], isJacobianAt_iff.2 fun i => ?_⟩
  have c (i : Fin 4) := gradAt_coord (x := k) i
  have K (c : ℝ) := gradAt_const (x := k) c
  simp only [equidistant, eqDistort_of_lt _ y h]
  generalize ht : arctan (norm2 y) = t
  have hp := (((((K 1).add ((c 0).mul (K (t * t)))).add ((c 1).mul (K (t * t * (t * t))))).add
    ((c 2).mul (K (t * t * (t * t) * (t * t))))).add ((c 3).mul (K (t * t * (t * t) * (t * t * (t * t))))))
  refine (((K (y i)).mul (((K t).mul hp).div (K (norm2 y)) hpos.ne'))).congr ?_
  have hsq : √(y 0 * y 0 + y 1 * y 1) = norm2 y := rfl
  funext j
  fin_cases i <;> fin_cases j <;> simp [eqParamJ, hsq, ht] <;> field_simp

/-- **C55 fails at the image centre for the equidistant distortion:** neither Jacobian is a number there. -/
theorem C55_equidistant_centre_counterexample (k : V4) :
    ¬ PointJacobianCorrect (equidistant k) 0 ∧ ¬ ParamJacobianCorrect equidistant k 0 := by
  constructor
  · rintro ⟨J, h, _⟩; simp [equidistant] at h
  · rintro ⟨J, h, _⟩; simp [equidistant] at h

/-! ### Field of view -/

theorem fov_branch {w : ℝ} {y : V2} (hw : 1 / 10 ^ 5 ≤ w * w) (hy : 1 / 10 ^ 5 ≤ norm2 y * norm2 y) :
    fovFactor w y = arctan (2 * tan (w / 2) * norm2 y) / (norm2 y * w) := by
  simp only [fovFactor]
  rw [if_neg (not_lt.2 hw), if_neg (not_lt.2 hy)]

/-- **C55, field-of-view distortion.** Away from the radius at which the formula switches, the Jacobian is the
derivative. -/
theorem C55_fov_point_partial (w : ℝ) (y : V2) (h : w ^ 2 < 1 / 10 ^ 5 ∨ y 0 ^ 2 + y 1 ^ 2 ≠ 1 / 10 ^ 5) :
    PointJacobianCorrect (fov w) y := by
  refine ⟨fovJ w y, rfl, isJacobianAt_iff.2 fun i => ?_⟩
  have hn : norm2 y * norm2 y = y 0 ^ 2 + y 1 ^ 2 := by rw [← sq, norm2_sq]; ring
  rw [← hn] at h
  by_cases hw : w * w < 1 / 10 ^ 5
  · have : (fun z => (fov w).distort z i) = fun z => z i := by
      funext z; simp only [fov, fovDistort, fovFactor, if_pos hw]; simp
    rw [this]
    refine (gradAt_coord i).congr ?_
    funext j
    simp only [fovJ, if_pos hw]
    simp [Matrix.one_apply, eq_comm]
  rcases h with h | h
  · exact absurd (by rwa [← sq]) hw
  rcases lt_or_gt_of_ne h with h | h
  · have hev : ∀ᶠ z in nhds y, norm2 z * norm2 z < 1 / 10 ^ 5 :=
      (cont_norm2.mul cont_norm2).continuousAt.eventually (gt_mem_nhds h)
    refine GradAt.congr_of_eventuallyEq (g := fun z => (2 * tan (w / 2) / w) * z i) ?_ ?_
    · refine ((gradAt_const _).mul (gradAt_coord i)).congr ?_
      funext j
      simp only [fovJ, if_neg hw, if_pos h]
      simp [Matrix.one_apply, eq_comm]
    · filter_upwards [hev] with z hz
      simp only [fov, fovDistort, fovFactor, if_neg hw, if_pos hz]; simp
  · have hpos : 0 < norm2 y := by
      rcases (norm2_nonneg y).eq_or_lt with e | e
      · rw [← e] at h; norm_num at h
      · exact e
    have hw0 : w ≠ 0 := by rintro rfl; norm_num at hw
    have hev : ∀ᶠ z in nhds y, 1 / 10 ^ 5 < norm2 z * norm2 z :=
      (cont_norm2.mul cont_norm2).continuousAt.eventually (lt_mem_nhds h)
    refine GradAt.congr_of_eventuallyEq
      (g := fun z => arctan (2 * tan (w / 2) * norm2 z) / (norm2 z * w) * z i) ?_ ?_
    · have ha := GradAt.comp (Real.hasDerivAt_arctan (2 * tan (w / 2) * norm2 y))
        ((gradAt_const (2 * tan (w / 2))).mul (grad_norm2 y hpos))
      have hd := (ha.div ((grad_norm2 y hpos).mul (gradAt_const w)) (mul_ne_zero hpos.ne' hw0)).mul (gradAt_coord i)
      have h2 := norm2_sq y
      have h3 : 1 + (2 * tan (w / 2) * norm2 y) ^ 2 ≠ 0 := by positivity
      refine hd.congr ?_
      funext j
      simp only [fovJ, if_neg hw, if_neg (not_lt.2 h.le)]
      clear ha hd
      generalize arctan (2 * tan (w / 2) * norm2 y) = A
      generalize tan (w / 2) = T at *
      have h4 : 4 * (T * T) * (y 0 * y 0 + y 1 * y 1) + 1 ≠ 0 := by
        rw [← h2]; convert h3 using 1; ring
      have h5 : y 0 * y 0 + y 1 * y 1 ≠ 0 := by rw [← h2]; positivity
      fin_cases i <;> fin_cases j <;> simp only [Matrix.of_apply, Matrix.cons_val', Matrix.cons_val_zero,
        Matrix.cons_val_one, Matrix.cons_val_fin_one, Fin.zero_eta, Fin.mk_one, Fin.isValue, reduceIte, zero_mul, zero_add,
        mul_zero, add_zero, one_ne_zero, zero_ne_one, mul_one, ← h2] <;>
        rw [← h2] at h4 h5 <;> generalize norm2 y = r at * <;> field_simp <;> ring
    · filter_upwards [hev] with z hz
      simp only [fov, fovDistort]
      rw [fov_branch (not_lt.1 hw) hz.le]; simp

end Kalibr.Camera
