import Verif.Expr.RK
import Verif.Expr.Props

/-!
# Prior error terms (C97)

`ErrorTermEuclidean` and `ErrorTermTransformation` of `aslam_backend_expressions`, which pull a point or a
transformation to a given value.
-/

namespace Kalibr.Exp

open Kalibr.Kin Matrix Real

/-- `ErrorTermEuclidean::evaluateErrorImplementation` (ErrorTermEuclidean.cpp:51-58): the error vector. -/
noncomputable def pointError (x : State) (e : Expr .euc) (prior : V3) : W V3 := do
  let t ← eval x e
  pure (fun j => t j - prior j)

/-- `ErrorTermEuclidean::evaluateJacobiansImplementation` (ErrorTermEuclidean.cpp:62-65). -/
noncomputable def pointErrorJac (x : State) (e : Expr .euc) : W (List (Block 3)) := jac0 x e (by simp)

/-- `_errorMatrix` of `ErrorTermTransformation` (ErrorTermTransformation.cpp:42). -/
noncomputable def errorMatrix (x : State) (e : Expr .tr) (prior : Trafo) : W M4 := do
  let T ← eval x e
  pure (T * prior.inverse.T)

/-- The error vector (ErrorTermTransformation.cpp:44-46): translation, then rotation vector. -/
noncomputable def trError (E : M4) : Fin 6 → ℝ :=
  let t := transform2rho E
  let r := R2AxisAngle (transform2C E)
  ![t 0, t 1, t 2, r 0, r 1, r 2]

/-- `ErrorTermTransformation::evaluateJacobiansImplementation` (ErrorTermTransformation.cpp:65-80); `E` is the
member `_errorMatrix`. -/
noncomputable def trErrorJac (x : State) (e : Expr .tr) (E : M4) : W (List (Block 6)) :=
  jac x e (k := .tr) (blocks6 1 (crossMx (transform2rho E)) 0 (rvInvS (R2AxisAngle (transform2C E))))

/-- The translation part and the rotation part of a curve of rigid motions with a twist velocity move the error
vector by its Jacobian. -/
theorem trError_moves {T : ℝ → M4} {ξ : Fin 6 → ℝ} (h0 : Rigid (T 0)) (h : TwistVelocity T ξ) (prior : Trafo)
    (hp : prior.Valid)
    (ha : 1 / 10 ^ 10 < norm3 (R2AxisAngle (transform2C (T 0 * prior.inverse.T))))
    (hb : norm3 (R2AxisAngle (transform2C (T 0 * prior.inverse.T))) < π - 1 / 10 ^ 10) :
    HasDerivAt (fun s => trError (T s * prior.inverse.T))
      ((blocks6 1 (crossMx (transform2rho (T 0 * prior.inverse.T))) 0
        (rvInvS (R2AxisAngle (transform2C (T 0 * prior.inverse.T))))).mulVec ξ) 0 := by
  have hE : TwistVelocity (fun s => T s * prior.inverse.T) ξ := by
    intro v
    have := h (prior.inverse.T.mulVec v)
    simpa only [Matrix.mulVec_mulVec] using this
  have hR : Rigid (T 0 * prior.inverse.T) := by
    obtain ⟨C, hC, t, e⟩ := h0
    have hv : Unit4 prior.inverse.q := (C50_closed prior prior hp hp).2.1
    rw [e]
    unfold Trafo.T
    rw [rt2Transform_mul]
    exact ⟨_, SO3.mul_mem hC (C48_unit_gives_rotation _ hv), _, rfl⟩
  obtain ⟨hω, hρ⟩ := twist_proj hR hE
  set E := T 0 * prior.inverse.T with hEdef
  set p := R2AxisAngle (transform2C E) with hpdef
  have hC : transform2C E ∈ SO3 := by
    obtain ⟨C, hC, t, e⟩ := hR
    rw [e, transform2C_rt]; exact hC
  have ht : (0 : ℝ) < 1 / 10 ^ 10 := by norm_num
  -- the rotation is the one of the rotation vector
  have hback : rvToR p = transform2C E := by
    have hne : p ≠ 0 := by
      intro hc
      rw [hc] at ha
      simp [norm3] at ha
      linarith
    have heqs := SO3.eqs hC
    -- the two functions agree
    have hsame : rvOfR (transform2C E) = p := by
      have hp2 := hpdef
      unfold R2AxisAngle mx2AxisAngle at hp2
      unfold rvOfR mx2AxisAngle
      simp only at hp2 ⊢
      have h14 : (1 : ℝ) / 10 ^ 14 ≤ 1 / 10 ^ 10 := by norm_num
      split_ifs at hp2 with h1 h2
      · exact absurd hp2 hne
      · exact absurd hp2 hne
      · rw [if_neg (fun hc => h1 (lt_of_lt_of_le hc h14)), if_neg (fun hc => h2 (lt_of_lt_of_le hc h14)), hp2]
    have harc : norm3 p = arccos ((transform2C E 0 0 + transform2C E 1 1 + transform2C E 2 2 - 1) / 2) := by
      have hp2 := hpdef
      unfold R2AxisAngle mx2AxisAngle at hp2
      simp only at hp2
      split_ifs at hp2 with h1 h2
      · exact absurd hp2 hne
      · exact absurd hp2 hne
      · set a := arccos (max (-1) (min ((transform2C E 0 0 + transform2C E 1 1 + transform2C E 2 2 - 1) * (1 / 2)) 1))
          with hadef
        set v : V3 := ![transform2C E 2 1 - transform2C E 1 2, transform2C E 0 2 - transform2C E 2 0,
          transform2C E 1 0 - transform2C E 0 1] with hv
        have hn0 : 0 ≤ norm3 v := norm3_nonneg v
        have hnv : 0 < norm3 v := by
          rw [abs_of_nonneg hn0] at h2; linarith
        have hu := unit_of_norm hnv
        have e1 : p = (-a) • ((1 / norm3 v) • v) := by rw [hp2, smul_smul]; congr 1; ring
        rw [e1, norm3_unit hu, abs_neg, abs_of_nonneg (arccos_nonneg _)]
        have hsd := sd_nonneg heqs
        have n3 := hsd 3; have n0 := hsd 0; have n1 := hsd 1; have n2 := hsd 2
        simp only [sd, Matrix.cons_val] at n0 n1 n2 n3
        rw [min_eq_left (by linarith), max_eq_right (by linarith)]
        congr 1; ring
    have h14 : (1 : ℝ) / 10 ^ 14 ≤ 1 / 10 ^ 10 := by norm_num
    have := (C51_matrix_round_trip_partial (transform2C E) hC (by rw [← harc]; linarith) (by rw [← harc]; linarith)).1
    rwa [hsame] at this
  have hreg := mx_regular (1 / 10 ^ 10) (by norm_num) p ha hb
  rw [hback] at hreg
  have hrot := hreg _ _ rfl hω
  have hS : (rvS p)⁻¹ = rvInvS p := by
    have h14 : (1 : ℝ) / 10 ^ 14 ≤ 1 / 10 ^ 10 := by norm_num
    exact Matrix.inv_eq_right_inv (C83_rotation_vector_inverse_partial p (by linarith) (by linarith)).2
  have hrot' : HasDerivAt (fun s => R2AxisAngle (transform2C (T s * prior.inverse.T)))
      ((rvInvS p).mulVec ![ξ 3, ξ 4, ξ 5]) 0 := by
    rw [← hS]; exact hrot
  rw [blocks6_mulVec, Matrix.one_mulVec, hasDerivAt_pi]
  rw [hasDerivAt_pi] at hrot'
  intro i
  fin_cases i
  · exact hρ 0
  · exact hρ 1
  · exact hρ 2
  · exact hrot' 0
  · exact hrot' 1
  · exact hrot' 2

/-- **C97** (points).  The error of the prior on a point is the point minus the prior, and its Jacobian is the
derivative of the error. -/
theorem C97_point (f : ℕ → (k : Kind) × Expr k) (x : State) (e : Expr .euc) (hw : WF f e) (hr : Regular x e)
    (prior : V3) (c₀ c₁ : Cache) (hs : Steps f x (pointError x e prior c₀).2 c₁) (δ : Incr) :
    (pointError x e prior c₀).1 = (fun j => val x e j - prior j) ∧
    ∀ cs : ℝ → Cache, HasDerivAt (fun s => (pointError (along x δ s) e prior (cs s)).1)
      (lin (pointErrorJac x e c₁).1 δ) 0 := by
  obtain ⟨ξ, h1, -, h3⟩ := C93_jacobian f x e hw hr c₀ c₁ hs δ
  refine ⟨?_, fun cs => ?_⟩
  · show (fun j => (eval x e c₀).1 j - prior j) = _
    rw [(C93_value f x e hw c₀).1]
  · have hm := h1 cs
    rw [show lin (pointErrorJac x e c₁).1 δ = ξ from h3 (by simp)]
    have hm' : HasDerivAt (fun s => (eval (along x δ s) e (cs s)).1) ξ 0 := hm
    exact hm'.sub_const prior

/-- **C97** (transformations).  The Jacobian of the prior on a transformation is the derivative of its error vector,
when the rotation between value and prior is neither smaller than the threshold of the code nor that close to half
a turn.  `E` is the error matrix the evaluation left.  Missing: the two exceptional sets, see
`C97_dead_zone_counterexample`. -/
theorem C97_transformation_partial (f : ℕ → (k : Kind) × Expr k) (x : State) (e : Expr .tr) (hw : WF f e)
    (hr : Regular x e) (prior : Trafo) (hp : prior.Valid) (c₀ c₁ : Cache) (E : M4)
    (hE : E = (errorMatrix x e prior c₀).1) (hs : Steps f x (errorMatrix x e prior c₀).2 c₁)
    (ha : 1 / 10 ^ 10 < norm3 (R2AxisAngle (transform2C E)))
    (hb : norm3 (R2AxisAngle (transform2C E)) < π - 1 / 10 ^ 10) (δ : Incr) (cs : ℝ → Cache) :
    HasDerivAt (fun s => trError (errorMatrix (along x δ s) e prior (cs s)).1) (lin (trErrorJac x e E c₁).1 δ) 0 := by
  obtain ⟨ξ, h1, h2, -⟩ := C93_jacobian f x e hw hr c₀ c₁ hs δ
  have hm : TwistVelocity (fun s => (eval (along x δ s) e (cs s)).1) ξ := h1 cs
  have h0 : (eval (along x δ 0) e (cs 0)).1 = val x e := by
    rw [(C93_value f _ e hw _).1, along_zero x δ e hr]
  have hE' : E = (eval (along x δ 0) e (cs 0)).1 * prior.inverse.T := by
    rw [hE, h0, ← (C93_value f x e hw c₀).1]; rfl
  have hrig : Rigid (eval (along x δ 0) e (cs 0)).1 := by rw [h0]; exact shape x e hr
  rw [hE'] at ha hb
  have := trError_moves hrig hm prior hp ha hb
  rw [trErrorJac, h2, hE']
  exact this

/-- The error vanishes at the prior. -/
theorem C97_zero (f : ℕ → (k : Kind) × Expr k) (x : State) (e : Expr .tr) (hw : WF f e) (prior : Trafo)
    (hp : prior.Valid) (c : Cache) (h : val x e = prior.T) : trError (errorMatrix x e prior c).1 = 0 := by
  have : (errorMatrix x e prior c).1 = 1 := by
    show (eval x e c).1 * _ = _
    rw [(C93_value f x e hw c).1, h]
    exact (C50_matrix_of_inverse prior hp).2.1
  rw [this]
  have h1 : transform2C (1 : M4) = 1 := by
    ext i j; fin_cases i <;> fin_cases j <;> simp [transform2C]
  have h2 : R2AxisAngle 1 = 0 := by
    unfold R2AxisAngle mx2AxisAngle
    simp only
    rw [if_pos]
    norm_num
  unfold trError
  rw [h1, h2]
  funext i
  fin_cases i <;> simp [transform2rho]

/-- Witness for the hypotheses of `C97_transformation_partial`: a quarter turn from the prior. -/
example : ∃ (f : ℕ → (k : Kind) × Expr k) (x : State) (e : Expr .tr) (prior : Trafo) (c : Cache),
    WF f e ∧ Regular x e ∧ prior.Valid ∧
      1 / 10 ^ 10 < norm3 (R2AxisAngle (transform2C (errorMatrix x e prior c).1)) ∧
      norm3 (R2AxisAngle (transform2C (errorMatrix x e prior c).1)) < π - 1 / 10 ^ 10 := by
  let e : Expr .tr := .trBasic (.rotDv 0) (.eucDv 0)
  let h : ℝ := √2 / 2
  let x : State := { demo with rot := fun _ => ⟨![h, 0, 0, h], ![h, 0, 0, h], quat2r ![h, 0, 0, h]⟩ }
  let prior : Trafo := ⟨quatIdentity, 0⟩
  have hh : h * h = 1 / 2 := by
    show √2 / 2 * (√2 / 2) = 1 / 2
    have := Real.mul_self_sqrt (show (0 : ℝ) ≤ 2 by norm_num)
    linarith
  have hi : prior.inverse.T = 1 := by
    have := (C50_matrix_of_inverse prior (by simp [prior, Trafo.Valid, Unit4, quatIdentity])).1
    have h1 : prior.T = 1 := by
      ext i j
      fin_cases i <;> fin_cases j <;> simp [prior, Trafo.T, rt2Transform, quat2r, quatIdentity]
    rwa [h1, mul_one] at this
  have hE : (errorMatrix x e prior (fun _ => ⟨0, 0, 0, 0, 0, 0⟩)).1 = rt2Transform (quat2r ![h, 0, 0, h]) ![1, 2, 3] := by
    show _ * prior.inverse.T = _
    rw [hi, mul_one]; rfl
  have hv : R2AxisAngle (quat2r ![h, 0, 0, h]) = ![π / 2, 0, 0] := by
    have hc : quat2r ![h, 0, 0, h] = !![1, 0, 0; 0, 0, 1; 0, -1, 0] := by
      ext i j
      fin_cases i <;> fin_cases j <;> simp [quat2r] <;> nlinarith [hh]
    rw [hc]
    have ha : (1 : ℝ) / 10 ^ 10 ≤ π / 2 := by have := pi_gt_three; norm_num; linarith
    have hp : (0 : ℝ) ≤ π / 2 := by positivity
    have hn : norm3 ![-1 - 1, 0, 0] = 2 := by
      unfold norm3
      simp only [Matrix.cons_val]
      rw [show ((-1 - 1) ^ 2 + 0 ^ 2 + 0 ^ 2 : ℝ) = 2 ^ 2 by norm_num, Real.sqrt_sq (by norm_num)]
    unfold R2AxisAngle mx2AxisAngle
    have e1 : arccos (max (-1) (min ((1 + 0 + 0 - 1) * (1 / 2)) 1)) = π / 2 := by norm_num
    simp only [Matrix.of_apply, Matrix.cons_val, sub_zero, e1, hn]
    rw [if_neg (by rw [abs_of_nonneg hp]; linarith), if_neg (by norm_num)]
    funext i
    fin_cases i <;> (simp; try ring)
  have hnorm : norm3 ![π / 2, 0, 0] = π / 2 := by
    unfold norm3
    simp only [Matrix.cons_val]
    rw [show ((π / 2) ^ 2 + 0 ^ 2 + 0 ^ 2 : ℝ) = (π / 2) ^ 2 by ring, Real.sqrt_sq (by positivity)]
  have := pi_gt_three
  refine ⟨fun _ => ⟨.tr, e⟩, x, e, prior, fun _ => ⟨0, 0, 0, 0, 0, 0⟩, ⟨trivial, trivial⟩, ⟨⟨?_, rfl⟩, trivial⟩,
    by simp [prior, Trafo.Valid, Unit4, quatIdentity], ?_, ?_⟩
  · show Unit4 ![h, 0, 0, h]
    simp only [Unit4, Matrix.cons_val]
    nlinarith [hh]
  · rw [hE, transform2C_rt, hv, hnorm]; norm_num; linarith
  · rw [hE, transform2C_rt, hv, hnorm]; norm_num; linarith

/-- **C97** (dead zone).  At the prior, where an optimisation with this term alone ends, the Jacobian is not the
derivative: the error of a rotation within the threshold of the prior is zero, so that the last three components do
not change at all, but the Jacobian has the angular velocity there.  Here the rotation turns with unit speed. -/
theorem C97_dead_zone_counterexample : ∃ (f : ℕ → (k : Kind) × Expr k) (x : State) (e : Expr .tr) (prior : Trafo)
    (δ : Incr) (c : Cache), WF f e ∧ Regular x e ∧ prior.Valid ∧ val x e = prior.T ∧
    (∀ cs : ℝ → Cache, HasDerivAt (fun s => trError (errorMatrix (along x δ s) e prior (cs s)).1) 0 0) ∧
    lin (trErrorJac x e (errorMatrix x e prior c).1 (errorMatrix x e prior c).2).1 δ = ![0, 0, 0, 1, 0, 0] := by
  let e : Expr .tr := .trBasic (.rotDv 0) (.eucDv 0)
  let f : ℕ → (k : Kind) × Expr k := fun _ => ⟨.tr, e⟩
  let x : State := { demo with rot := fun _ => ⟨quatIdentity, quatIdentity, quat2r quatIdentity⟩,
                               euc := fun _ => ⟨0, 0⟩ }
  let prior : Trafo := ⟨quatIdentity, 0⟩
  let δ : Incr := fun d => match d with
    | .rot _ => ![1, 0, 0]
    | _ => 0
  let c : Cache := fun _ => ⟨0, 0, 0, 0, 0, 0⟩
  have hq1 : quat2r quatIdentity = 1 := by
    ext i j; fin_cases i <;> fin_cases j <;> simp [quat2r, quatIdentity]
  have hrt1 : rt2Transform 1 0 = 1 := by
    ext i j; fin_cases i <;> fin_cases j <;> simp [rt2Transform]
  have hp : prior.Valid := by simp [prior, Trafo.Valid, Unit4, quatIdentity]
  have hT : prior.T = 1 := by
    show rt2Transform (quat2r quatIdentity) 0 = 1
    rw [hq1, hrt1]
  have hi : prior.inverse.T = 1 := by
    have := (C50_matrix_of_inverse prior hp).1
    rwa [hT, mul_one] at this
  have hw : WF f e := ⟨trivial, trivial⟩
  have hr : Regular x e := ⟨⟨by simp [x, Unit4, quatIdentity], rfl⟩, trivial⟩
  have hE : ∀ s c', (errorMatrix (along x δ s) e prior c').1 =
      rt2Transform (quat2r (updateQuat quatIdentity (s • ![1, 0, 0]))) 0 := by
    intro s c'
    show _ * prior.inverse.T = _
    rw [hi, mul_one]
    show rt2Transform (quat2r (updateQuat quatIdentity (s • ![1, 0, 0]))) _ = _
    congr 1
    funext j
    show (0 : V3) j + (s • (0 : V3)) j = 0
    simp
  refine ⟨f, x, e, prior, δ, c, hw, hr, hp, ?_, fun cs => ?_, ?_⟩
  · rw [hT]
    show rt2Transform (quat2r quatIdentity) 0 = 1
    rw [hq1, hrt1]
  · have hev : (fun s => trError (errorMatrix (along x δ s) e prior (cs s)).1) =ᶠ[nhds 0] fun _ => 0 := by
      have hm := angular_iff.mp (rot_deriv quatIdentity ![1, 0, 0])
      have hcont (i j : Fin 3) : ContinuousAt
          (fun s : ℝ => quat2r (updateQuat quatIdentity (s • ![1, 0, 0])) i j) 0 := (hm i j).continuousAt
      have hC : ContinuousAt (fun s : ℝ => |arccos (max (-1) (min
          ((quat2r (updateQuat quatIdentity (s • ![1, 0, 0])) 0 0 +
            quat2r (updateQuat quatIdentity (s • ![1, 0, 0])) 1 1 +
            quat2r (updateQuat quatIdentity (s • ![1, 0, 0])) 2 2 - 1) * (1 / 2)) 1))|) 0 := by
        have h1 := (((((hcont 0 0).add (hcont 1 1)).add (hcont 2 2)).sub
          (continuousAt_const (y := (1 : ℝ)))).mul (continuousAt_const (y := (1 / 2 : ℝ))))
        exact (Real.continuous_arccos.continuousAt.comp
          ((continuousAt_const (y := (-1 : ℝ))).max (h1.min (continuousAt_const (y := (1 : ℝ)))))).abs
      have h0 : |arccos (max (-1) (min
          ((quat2r (updateQuat quatIdentity ((0 : ℝ) • ![1, 0, 0])) 0 0 +
            quat2r (updateQuat quatIdentity ((0 : ℝ) • ![1, 0, 0])) 1 1 +
            quat2r (updateQuat quatIdentity ((0 : ℝ) • ![1, 0, 0])) 2 2 - 1) * (1 / 2)) 1))| < (1 : ℝ) / 10 ^ 10 := by
        rw [zero_smul, updateQuat_zero, hq1]
        norm_num
      filter_upwards [hC.eventually_lt_const h0] with s hs
      rw [hE]
      unfold trError
      rw [transform2C_rt, transform2rho_rt]
      have h2 : R2AxisAngle (quat2r (updateQuat quatIdentity (s • ![1, 0, 0]))) = 0 := by
        unfold R2AxisAngle mx2AxisAngle
        simp only
        rw [if_pos hs]
      rw [h2]
      funext i
      fin_cases i <;> simp
    exact (hasDerivAt_const (0 : ℝ) (0 : Fin 6 → ℝ)).congr_of_eventuallyEq hev
  · have hE0 : (errorMatrix x e prior c).1 = 1 := by
      show _ * prior.inverse.T = _
      rw [hi, mul_one]
      show rt2Transform (quat2r quatIdentity) 0 = 1
      rw [hq1, hrt1]
    have h1 : transform2C (1 : M4) = 1 := by
      ext i j; fin_cases i <;> fin_cases j <;> simp [transform2C]
    have h3 : transform2rho (1 : M4) = 0 := by
      funext i; fin_cases i <;> simp [transform2rho]
    have h2 : R2AxisAngle 1 = 0 := by
      unfold R2AxisAngle mx2AxisAngle
      simp only
      rw [if_pos]
      norm_num
    have h4 : rvInvS 0 = 1 := by
      unfold rvInvS
      simp
    rw [hE0, trErrorJac, h1, h2, h3, h4]
    have hb : blocks6 1 (crossMx 0) 0 1 = 1 := by
      ext i j; fin_cases i <;> fin_cases j <;> simp [blocks6, crossMx]
    rw [hb]
    simp only [e, jac, eval, bind_apply, pure_apply, lin]
    simp only [List.singleton_append, List.map_cons, List.map_nil, List.sum_cons, List.sum_nil, δ]
    funext i
    fin_cases i <;> simp [jBasicRot, jBasicTransl, x, crossMx]

end Kalibr.Exp
