import Verif.Expr.Props
import Verif.Kinematics.EulerTrip
import Verif.Kinematics.SMatrix
import Mathlib.Analysis.SpecialFunctions.Complex.LogDeriv
import Mathlib.Analysis.SpecialFunctions.Trigonometric.InverseDeriv

/-!
# The rotational kinematics of rotation parameters

Where the parameters of a rotation are differentiable, so that `EuclideanExpressionNodeRotationParameters` has
the right Jacobian.
-/

namespace Kalibr.Exp

open Kalibr.Kin Matrix Real Filter Topology

/-- From the rates of the parameters to the derivative of the parameters: both curves through `C` with the same
angular velocity have the same first derivative, and along the curve of parameters the derivative is known. -/
theorem rk_regular (rk : RK) (C : M3) (hp : rk.toR (rk.ofR C) = C)
    (hof : ∀ᶠ q in 𝓝 (rk.ofR C), rk.ofR (rk.toR q) = q) (hS : IsUnit (rk.S (rk.ofR C)))
    (hr : ∀ (p : ℝ → V3) (r : V3), p 0 = rk.ofR C → HasDerivAt p r 0 →
      AngularVelocity (fun s => rk.toR (p s)) ((rk.S (rk.ofR C)).mulVec r) 0)
    (hd : DifferentiableAt ℝ (fun A : Fin 3 → Fin 3 → ℝ => rk.ofR (Matrix.of A)) fun i j => C i j) : RKRegular rk C := by
  intro f ω h0 hf
  set r := (rk.S (rk.ofR C))⁻¹.mulVec ω with hrdef
  let p : ℝ → V3 := fun s => rk.ofR C + s • r
  have hp0 : p 0 = rk.ofR C := by simp [p]
  have hpd : HasDerivAt p r 0 := by
    have := ((hasDerivAt_id (0 : ℝ)).smul_const r).const_add (rk.ofR C)
    simpa [p] using this
  have hg := hr p r hp0 hpd
  have hω : (rk.S (rk.ofR C)).mulVec r = ω := by
    rw [hrdef, Matrix.mulVec_mulVec, Matrix.mul_nonsing_inv _ ((Matrix.isUnit_iff_isUnit_det _).mp hS), Matrix.one_mulVec]
  rw [hω] at hg
  have entry {g : ℝ → M3} (hg0 : g 0 = C) (hg : AngularVelocity g ω 0) :
      HasDerivAt (F := Fin 3 → Fin 3 → ℝ) (fun s => g s) (-(crossMx ω * C) : M3) 0 := by
    rw [angular_iff, hg0] at hg
    exact hasDerivAt_pi.mpr fun i => hasDerivAt_pi.mpr fun j => hg i j
  have hL := hd.hasFDerivAt
  have e1 : HasDerivAt (fun s => rk.ofR (f s))
      (fderiv ℝ (fun A : Fin 3 → Fin 3 → ℝ => rk.ofR (Matrix.of A)) (fun i j => C i j) (-(crossMx ω * C) : M3)) 0 :=
    HasFDerivAt.comp_hasDerivAt_of_eq 0 hL (entry h0 hf) h0.symm
  have e2 : HasDerivAt (fun s => rk.ofR (rk.toR (p s)))
      (fderiv ℝ (fun A : Fin 3 → Fin 3 → ℝ => rk.ofR (Matrix.of A)) (fun i j => C i j) (-(crossMx ω * C) : M3)) 0 :=
    HasFDerivAt.comp_hasDerivAt_of_eq 0 hL (entry (g := fun s => rk.toR (p s)) (by simp only [hp0, hp]) hg)
      (by simp only [hp0, hp])
  have e3 : HasDerivAt (fun s => rk.ofR (rk.toR (p s))) r 0 := by
    refine hpd.congr_of_eventuallyEq ?_
    have hc : Tendsto p (𝓝 0) (𝓝 (rk.ofR C)) := by
      have := hpd.continuousAt.tendsto
      rwa [hp0] at this
    exact hc.eventually hof
  rw [e2.unique e3] at e1
  exact e1

theorem atan2_differentiableAt {E : Type} [NormedAddCommGroup E] [NormedSpace ℝ E] {u v : E → ℝ} {x : E}
    (hu : DifferentiableAt ℝ u x) (hv : DifferentiableAt ℝ v x) (h : (⟨v x, u x⟩ : ℂ) ∈ Complex.slitPlane) :
    DifferentiableAt ℝ (fun y => atan2 (u y) (v y)) x := by
  have h1 : DifferentiableAt ℝ (fun y => ((v y : ℂ) + (u y : ℂ) * Complex.I)) x :=
    (Complex.ofRealCLM.differentiableAt.comp x hv).add
      ((Complex.ofRealCLM.differentiableAt.comp x hu).mul_const Complex.I)
  have e : (fun y => atan2 (u y) (v y)) = fun y => Complex.imCLM (Complex.log ((v y : ℂ) + (u y : ℂ) * Complex.I)) := by
    funext y
    show Complex.arg ⟨v y, u y⟩ = (Complex.log _).im
    rw [Complex.log_im]
    congr 1
    apply Complex.ext <;> simp
  rw [e]
  have hx : ((v x : ℂ) + (u x : ℂ) * Complex.I) ∈ Complex.slitPlane := by
    convert h using 1
    apply Complex.ext <;> simp
  have h2 : DifferentiableAt ℝ Complex.log ((v x : ℂ) + (u x : ℂ) * Complex.I) :=
    (Complex.differentiableAt_log hx).restrictScalars ℝ
  exact Complex.imCLM.differentiableAt.comp x (DifferentiableAt.comp (g := Complex.log) x h2 h1)

/-- Specification: yaw and roll are not half a turn, where the angles jump. -/
def NoJump (p : V3) : Prop := p 0 ≠ π ∧ p 2 ≠ π

theorem slit {y x k : ℝ} (hk : 0 < k) (h : x ^ 2 + y ^ 2 = k ^ 2) (hj : atan2 y x ≠ π) :
    (⟨x, y⟩ : ℂ) ∈ Complex.slitPlane := by
  rw [Complex.mem_slitPlane_iff_arg]
  refine ⟨hj, fun hc => ?_⟩
  have h1 := congrArg Complex.re hc
  have h2 := congrArg Complex.im hc
  simp only [Complex.zero_re, Complex.zero_im] at h1 h2
  rw [h1, h2] at h
  nlinarith

theorem entry_diff (i j : Fin 3) (C : Fin 3 → Fin 3 → ℝ) :
    DifferentiableAt ℝ (fun A : Fin 3 → Fin 3 → ℝ => A i j) C := by fun_prop

theorem atan2_lt (y x : ℝ) : -π < atan2 y x ∧ atan2 y x ≤ π := ⟨Complex.neg_pi_lt_arg _, Complex.arg_le_pi _⟩

theorem ypr_regular (C : M3) (hC : C ∈ SO3) (hg : |C 2 0| ≠ 1) (hj : NoJump (yprOfR C)) :
    RKRegular ⟨yprToR, yprOfR, yprS⟩ C := by
  obtain ⟨k, hk, hks, hk2, hl, hu, h1, h2⟩ := pitch_k (SO3.eqs hC) hg
  have cy : 0 < cos (yprOfR C 1) := by
    show 0 < cos (arcsin (-C 2 0))
    rw [cos_arcsin, neg_sq, ← hks]; exact hk
  have p0 : -(π / 2) < yprOfR C 1 := by
    show -(π / 2) < arcsin (-C 2 0)
    rw [neg_pi_div_two_lt_arcsin]; nlinarith
  have p1 : yprOfR C 1 < π / 2 := by
    show arcsin (-C 2 0) < π / 2
    rw [arcsin_lt_pi_div_two]; nlinarith
  have y1 : yprOfR C 0 < π := lt_of_le_of_ne (atan2_lt _ _).2 hj.1
  have r1 : yprOfR C 2 < π := lt_of_le_of_ne (atan2_lt _ _).2 hj.2
  have y0 : -π < yprOfR C 0 := (atan2_lt _ _).1
  have r0 : -π < yprOfR C 2 := (atan2_lt _ _).1
  refine rk_regular _ C (C82_ypr_matrix C hC hg) ?_ ?_ ?_ ?_
  · have ev (i : Fin 3) (a b : ℝ) (ha : a < yprOfR C i) (hb : yprOfR C i < b) :
        ∀ᶠ q : V3 in 𝓝 (yprOfR C), a < q i ∧ q i < b := by
      have hc : Tendsto (fun q : V3 => q i) (𝓝 (yprOfR C)) (𝓝 (yprOfR C i)) := (continuous_apply i).tendsto _
      exact (hc.eventually (lt_mem_nhds ha)).and (hc.eventually (gt_mem_nhds hb))
    filter_upwards [ev 0 _ _ y0 y1, ev 1 _ _ p0 p1, ev 2 _ _ r0 r1] with q a b c
    exact C82_ypr_angles q ⟨a.1, a.2.le, b.1, b.2, c.1, c.2.le⟩
  · rw [Matrix.isUnit_iff_isUnit_det, isUnit_iff_ne_zero]
    have z1 := sin_sq_add_cos_sq (yprOfR C 0)
    have : (yprS (yprOfR C)).det = cos (yprOfR C 1) := by
      simp [yprS, yprBuildS, Matrix.det_fin_three]
      grind
    show (yprS (yprOfR C)).det ≠ 0
    rw [this]; exact cy.ne'
  · intro p r hp h
    have := C52_ypr_rates p r 0 h
    rwa [hp] at this
  · refine (differentiableAt_pi (E := Fin 3 → Fin 3 → ℝ)).mpr fun i => ?_
    fin_cases i
    · exact atan2_differentiableAt (entry_diff 1 0 _) (entry_diff 0 0 _) (slit hk h1 hj.1)
    · exact (differentiableAt_arcsin.mpr ⟨by show -C 2 0 ≠ -1; nlinarith, by show -C 2 0 ≠ 1; nlinarith⟩).comp
        (fun i j => C i j) (entry_diff 2 0 _).neg
    · exact atan2_differentiableAt (entry_diff 2 1 _) (entry_diff 2 2 _) (slit hk h2 hj.2)

theorem zyx_regular (C : M3) (hC : C ∈ SO3) (hg : |C 2 0| ≠ 1) (hj : NoJump (yprOfR C)) :
    RKRegular ⟨zyxToR, zyxOfR, zyxS⟩ C := by
  intro f ω h0 hf
  have h := ypr_regular C hC hg hj f ω h0 hf
  have e : zyxS (zyxOfR C) = -yprS (yprOfR C) := by
    rw [zyxOf_eq]
    ext i j
    fin_cases i <;> fin_cases j <;> simp [zyxS, yprS, zyxBuildS, yprBuildS]
  have e2 : (-yprS (yprOfR C))⁻¹ = -(yprS (yprOfR C))⁻¹ := by
    by_cases hu : IsUnit (yprS (yprOfR C)).det
    · apply Matrix.inv_eq_right_inv
      rw [neg_mul_neg, Matrix.mul_nonsing_inv _ hu]
    · rw [Matrix.nonsing_inv_apply_not_isUnit _ hu, Matrix.nonsing_inv_apply_not_isUnit, neg_zero]
      rw [Matrix.det_neg]
      intro hc
      apply hu
      simpa using hc
  show HasDerivAt (fun s => zyxOfR (f s)) ((zyxS (zyxOfR C))⁻¹.mulVec ω) 0
  rw [e, e2, Matrix.neg_mulVec]
  have : (fun s => zyxOfR (f s)) = fun s => -yprOfR (f s) := by funext s; exact zyxOf_eq _
  rw [this]
  exact h.fun_neg

theorem zxy_regular (C : M3) (hC : C ∈ SO3) (hg : |C 2 1| ≠ 1) (hj : NoJump (zxyOfR C)) :
    RKRegular ⟨zxyToR, zxyOfR, zxyS⟩ C := by
  have e := SO3.eqs hC
  have hne : C 2 1 ^ 2 ≠ 1 := fun hc => hg (by
    rw [← sq_abs] at hc; nlinarith [abs_nonneg (C 2 1)])
  have hle : C 2 1 ^ 2 < 1 := lt_of_le_of_ne (by nlinarith [e.r2, sq_nonneg (C 2 0), sq_nonneg (C 2 2)]) hne
  obtain ⟨k, hks⟩ : ∃ k, k = √(1 - C 2 1 ^ 2) := ⟨_, rfl⟩
  have hk : 0 < k := by rw [hks]; exact Real.sqrt_pos.mpr (by linarith)
  have hk2 : k ^ 2 = 1 - C 2 1 ^ 2 := by rw [hks]; exact Real.sq_sqrt (by linarith)
  have h1 : C 1 1 ^ 2 + (-C 0 1) ^ 2 = k ^ 2 := by rw [hk2]; linarith [e.c1]
  have h2 : C 2 2 ^ 2 + (-C 2 0) ^ 2 = k ^ 2 := by rw [hk2]; linarith [e.r2]
  have cy : 0 < cos (zxyOfR C 1) := by
    show 0 < cos (arcsin (C 2 1))
    rw [cos_arcsin, ← hks]; exact hk
  have p0 : -(π / 2) < zxyOfR C 1 := by
    show -(π / 2) < arcsin (C 2 1)
    rw [neg_pi_div_two_lt_arcsin]; nlinarith
  have p1 : zxyOfR C 1 < π / 2 := by
    show arcsin (C 2 1) < π / 2
    rw [arcsin_lt_pi_div_two]; nlinarith
  have y1 : zxyOfR C 0 < π := lt_of_le_of_ne (atan2_lt _ _).2 hj.1
  have r1 : zxyOfR C 2 < π := lt_of_le_of_ne (atan2_lt _ _).2 hj.2
  have y0 : -π < zxyOfR C 0 := (atan2_lt _ _).1
  have r0 : -π < zxyOfR C 2 := (atan2_lt _ _).1
  refine rk_regular _ C (C82_zxy_matrix C hC hg) ?_ ?_ ?_ ?_
  · have ev (i : Fin 3) (a b : ℝ) (ha : a < zxyOfR C i) (hb : zxyOfR C i < b) :
        ∀ᶠ q : V3 in 𝓝 (zxyOfR C), a < q i ∧ q i < b := by
      have hc : Tendsto (fun q : V3 => q i) (𝓝 (zxyOfR C)) (𝓝 (zxyOfR C i)) := (continuous_apply i).tendsto _
      exact (hc.eventually (lt_mem_nhds ha)).and (hc.eventually (gt_mem_nhds hb))
    filter_upwards [ev 0 _ _ y0 y1, ev 1 _ _ p0 p1, ev 2 _ _ r0 r1] with q a b c
    exact C82_zxy_angles q ⟨a.1, a.2.le, b.1, b.2, c.1, c.2.le⟩
  · rw [Matrix.isUnit_iff_isUnit_det, isUnit_iff_ne_zero]
    have z1 := sin_sq_add_cos_sq (zxyOfR C 0)
    have : (zxyS (zxyOfR C)).det = -cos (zxyOfR C 1) := by
      simp [zxyS, Matrix.det_fin_three]
      grind
    show (zxyS (zxyOfR C)).det ≠ 0
    rw [this]; linarith
  · intro p r hp h
    have := C52_zxy_rates p r 0 h
    rwa [hp] at this
  · refine (differentiableAt_pi (E := Fin 3 → Fin 3 → ℝ)).mpr fun i => ?_
    fin_cases i
    · exact atan2_differentiableAt (entry_diff 0 1 _).neg (entry_diff 1 1 _) (slit hk h1 hj.1)
    · exact (differentiableAt_arcsin.mpr ⟨by show C 2 1 ≠ -1; nlinarith, by show C 2 1 ≠ 1; nlinarith⟩).comp
        (fun i j => C i j) (entry_diff 2 1 _)
    · exact atan2_differentiableAt (entry_diff 2 0 _).neg (entry_diff 2 2 _) (slit hk h2 hj.2)

/-- The three numbers read from the skew symmetric part of a matrix. -/
def axisOf (A : Fin 3 → Fin 3 → ℝ) : V3 := ![A 2 1 - A 1 2, A 0 2 - A 2 0, A 1 0 - A 0 1]

theorem mx_regular (thr : ℝ) (hthr : 1 / 10 ^ 14 ≤ thr) (p : V3) (h0 : thr < norm3 p) (h1 : norm3 p < π - thr) :
    RKRegular ⟨rvToR, mx2AxisAngle thr, rvS⟩ (rvToR p) := by
  have ht : 0 < thr := lt_of_lt_of_le (by norm_num) hthr
  have hpos : 0 < norm3 p := ht.trans h0
  have he := unit_of_norm hpos
  have trip (q : V3) (a : thr ≤ norm3 q) (b : norm3 q ≤ π - thr) : mx2AxisAngle thr (rvToR q) = q := by
    unfold rvToR
    simp only
    have hq : 0 < norm3 q := by linarith
    rw [if_neg (by linarith), mx2AxisAngle_of _ _ _ (unit_of_norm hq) a (by linarith) ht
      (two_sin_ge ht.le a b), smul_smul, mul_one_div_cancel hq.ne', one_smul]
  have hback : mx2AxisAngle thr (rvToR p) = p := trip p h0.le h1.le
  have hn : Continuous fun q : V3 => norm3 q := by unfold norm3; fun_prop
  have hmx : rvToR p = axisAngleMx (norm3 p) ((1 / norm3 p) • p) := by
    unfold rvToR; simp only; rw [if_neg (by linarith)]
  refine rk_regular _ _ ?_ ?_ ?_ ?_ ?_ <;> simp only [hback]
  · have hc : Tendsto (fun q : V3 => norm3 q) (𝓝 p) (𝓝 (norm3 p)) := hn.tendsto _
    filter_upwards [hc.eventually (lt_mem_nhds h0), hc.eventually (gt_mem_nhds h1)] with q a b
    exact trip q a.le b.le
  · have h := C83_rotation_vector_inverse_partial p (by linarith) (by linarith)
    exact ⟨⟨_, _, h.2, h.1⟩, rfl⟩
  · intro q r hq h
    have := C52_rotation_vector_rates_partial q r 0 h (by rw [hq]; linarith)
    rwa [hq] at this
  · -- differentiability
    obtain ⟨a, ha⟩ : ∃ a, a = norm3 p := ⟨_, rfl⟩
    obtain ⟨e, hee⟩ : ∃ e, e = (1 / norm3 p) • p := ⟨_, rfl⟩
    rw [← hee] at he
    rw [hmx, ← hee, ← ha]
    rw [← ha] at h0 h1
    have hs := two_sin_ge ht.le h0.le h1.le
    have hsa : 0 < sin a := by linarith
    have hsgt : thr < 2 * sin a := by
      refine lt_of_le_of_ne hs fun hc => ?_
      obtain ⟨δ, hδ, h2, h3⟩ : ∃ δ : ℝ, thr < δ ∧ δ ≤ a ∧ a ≤ π - δ :=
        ⟨min a (π - a), lt_min h0 (by linarith), min_le_left _ _, by linarith [min_le_right a (π - a)]⟩
      linarith [two_sin_ge (by linarith) h2 h3]
    have htr : (axisAngleMx a e 0 0 + axisAngleMx a e 1 1 + axisAngleMx a e 2 2 - 1) * (1 / 2) = cos a := by
      unfold Unit3 at he
      simp [axisAngleMx]
      linear_combination (1 / 2 - cos a / 2) * he
    have hax : axisOf (axisAngleMx a e) = (-(2 * sin a)) • e := by
      apply ext3 <;> simp [axisOf, axisAngleMx] <;> ring
    have hnorm : norm3 (axisOf (axisAngleMx a e)) = 2 * sin a := by
      rw [hax, norm3_unit he, abs_neg, abs_of_pos (by linarith)]
    have hcos := sin_sq_add_cos_sq a
    have hc1 : cos a < 1 := by nlinarith [sq_nonneg (cos a - 1), cos_le_one a]
    have hc2 : -1 < cos a := by nlinarith [sq_nonneg (cos a + 1), neg_one_le_cos a]
    let tr : (Fin 3 → Fin 3 → ℝ) → ℝ := fun A => (A 0 0 + A 1 1 + A 2 2 - 1) * (1 / 2)
    have htrd : DifferentiableAt ℝ tr (fun i j => axisAngleMx a e i j) := by
      simp only [tr]; fun_prop
    have hacos : DifferentiableAt ℝ (fun A => arccos (tr A)) (fun i j => axisAngleMx a e i j) := by
      refine DifferentiableAt.comp (g := arccos) _ (differentiableAt_arccos.mpr ⟨?_, ?_⟩) htrd
      · show tr (axisAngleMx a e) ≠ -1
        simp only [tr]; rw [htr]; exact hc2.ne'
      · show tr (axisAngleMx a e) ≠ 1
        simp only [tr]; rw [htr]; exact hc1.ne
    have hax1 : DifferentiableAt ℝ axisOf (fun i j => axisAngleMx a e i j) := by
      refine (differentiableAt_pi (E := Fin 3 → Fin 3 → ℝ)).mpr fun i => ?_
      fin_cases i <;> simp only [axisOf] <;> simp <;> fun_prop
    have hnd : DifferentiableAt ℝ (fun A => norm3 (axisOf A)) (fun i j => axisAngleMx a e i j) := by
      unfold norm3
      refine DifferentiableAt.sqrt ?_ ?_
      · have hi (i : Fin 3) := (differentiableAt_pi (E := Fin 3 → Fin 3 → ℝ)).mp hax1 i
        fun_prop (disch := assumption)
      · have h5 : norm3 (axisOf (axisAngleMx a e)) ≠ 0 := by rw [hnorm]; linarith
        intro hc
        apply h5
        unfold norm3
        rw [hc, Real.sqrt_zero]
    have hmain : DifferentiableAt ℝ (fun A => (-arccos (tr A) / norm3 (axisOf A)) • axisOf A)
        (fun i j => axisAngleMx a e i j) := by
      simp only [div_eq_mul_inv]
      refine DifferentiableAt.fun_smul (hacos.fun_neg.fun_mul (hnd.fun_inv ?_)) hax1
      show norm3 (axisOf (axisAngleMx a e)) ≠ 0
      rw [hnorm]; linarith
    refine hmain.congr_of_eventuallyEq ?_
    have c1 := htrd.continuousAt.tendsto
    have c2 := hacos.continuousAt.tendsto
    have c3 := hnd.continuousAt.tendsto
    have v1 : tr (axisAngleMx a e) = cos a := htr
    have v2 : arccos (tr (axisAngleMx a e)) = a := by rw [v1, arccos_cos (by linarith) (by linarith)]
    rw [v1] at c1
    rw [v2] at c2
    rw [hnorm] at c3
    filter_upwards [c1.eventually (lt_mem_nhds hc2), c1.eventually (gt_mem_nhds hc1), c2.eventually (lt_mem_nhds h0),
      c3.eventually (lt_mem_nhds hsgt)] with A a1 a2 a3 a4
    have e1 : max (-1) (min ((A 0 0 + A 1 1 + A 2 2 - 1) * (1 / 2)) 1) = tr A := by
      rw [min_eq_left a2.le, max_eq_right a1.le]
    show mx2AxisAngle (thr) (Matrix.of A) = _
    unfold mx2AxisAngle
    simp only [Matrix.of_apply, e1]
    rw [if_neg (by rw [abs_of_pos (by linarith)]; linarith)]
    have e2 : ¬ |norm3 ![A 2 1 - A 1 2, A 0 2 - A 2 0, A 1 0 - A 0 1]| < thr := by
      show ¬ |norm3 (axisOf A)| < thr
      rw [abs_of_pos (by linarith)]; linarith
    rw [if_neg e2]
    rfl

theorem rv_regular (p : V3) (h0 : 1 / 10 ^ 14 < norm3 p) (h1 : norm3 p < π - 1 / 10 ^ 14) :
    RKRegular ⟨rvToR, rvOfR, rvS⟩ (rvToR p) := mx_regular _ le_rfl p h0 h1

/-- **C93** (rotation parameters).  The hypothesis `RKRegular` on rotation parameters holds away from the
singularities of the parametrisation: gimbal lock and half turns of yaw and roll for Euler angles, the identity
and half turns (up to the threshold of the code) for rotation vectors. -/
theorem C93_rotation_parameters (C : M3) (hC : C ∈ SO3) :
    (|C 2 0| ≠ 1 → NoJump (yprOfR C) → RKRegular ⟨yprToR, yprOfR, yprS⟩ C ∧ RKRegular ⟨zyxToR, zyxOfR, zyxS⟩ C) ∧
    (|C 2 1| ≠ 1 → NoJump (zxyOfR C) → RKRegular ⟨zxyToR, zxyOfR, zxyS⟩ C) ∧
    (1 / 10 ^ 14 < arccos ((C 0 0 + C 1 1 + C 2 2 - 1) / 2) →
      arccos ((C 0 0 + C 1 1 + C 2 2 - 1) / 2) < π - 1 / 10 ^ 14 → RKRegular ⟨rvToR, rvOfR, rvS⟩ C) := by
  refine ⟨fun h j => ⟨ypr_regular C hC h j, zyx_regular C hC h j⟩, fun h j => zxy_regular C hC h j, fun h0 h1 => ?_⟩
  have h := (C51_matrix_round_trip_partial C hC h0.le h1.le).1
  obtain ⟨p, hp⟩ : ∃ p, p = rvOfR C := ⟨_, rfl⟩
  have hle := (C51_matrix_round_trip_partial C hC h0.le h1.le).2
  rw [← hp] at h hle
  have ht : (0 : ℝ) < 1 / 10 ^ 14 := by norm_num
  have hn : ¬ norm3 p < 1 / 10 ^ 14 := by
    intro hlt
    rw [← h] at h0
    unfold rvToR at h0
    simp only [if_pos hlt] at h0
    norm_num at h0
  have hpos : 0 < norm3 p := by linarith
  have he := unit_of_norm hpos
  have hmx : C = axisAngleMx (norm3 p) ((1 / norm3 p) • p) := by
    rw [← h]; unfold rvToR; simp only; rw [if_neg hn]
  have htr : (C 0 0 + C 1 1 + C 2 2 - 1) / 2 = cos (norm3 p) := by
    rw [hmx]
    unfold Unit3 at he
    generalize (1 / norm3 p) • p = e at he
    simp [axisAngleMx]
    linear_combination (1 / 2 - cos (norm3 p) / 2) * he
  rw [htr, arccos_cos hpos.le hle] at h0 h1
  rw [← h]
  exact rv_regular p h0 h1

/-- Witness: the matrix of the angles `(0.1, 0.2, 0.3)` has no singularity. -/
example : yprToR ![1 / 10, 1 / 5, 3 / 10] ∈ SO3 ∧ |yprToR ![1 / 10, 1 / 5, 3 / 10] 2 0| ≠ 1 ∧
    NoJump (yprOfR (yprToR ![1 / 10, 1 / 5, 3 / 10])) := by
  have h3 := pi_gt_three
  refine ⟨(C82_rotations _).1, ?_, ?_⟩
  · have h : yprToR ![1 / 10, 1 / 5, 3 / 10] 2 0 = -sin (1 / 5) := by simp [yprToR]
    rw [h, abs_neg, abs_of_nonneg (sin_nonneg_of_nonneg_of_le_pi (by norm_num) (by linarith))]
    have := sin_lt (x := 1 / 5) (by norm_num)
    linarith
  · rw [C82_ypr_angles _ ⟨by simp; linarith, by simp; linarith, by simp; linarith, by simp; linarith,
      by simp; linarith, by simp; linarith⟩]
    constructor <;> simp <;> linarith

end Kalibr.Exp
