import Verif.Camera.PinholeProps

/-!
The omnidirectional projection: back-projection (C57), Jacobians (C55) and homogeneous points (C56).
-/

namespace Kalibr.Camera

open Real

set_option linter.unusedSimpArgs false

theorem norm3_nonneg (p : V3) : 0 ≤ Omni.norm3 p := Real.sqrt_nonneg _

theorem norm3_sq (p : V3) : Omni.norm3 p ^ 2 = p 0 ^ 2 + p 1 ^ 2 + p 2 ^ 2 := Real.sq_sqrt (by positivity)

theorem abs_z_le_norm3 (p : V3) : |p 2| ≤ Omni.norm3 p :=
  Real.abs_le_sqrt (by nlinarith [sq_nonneg (p 0), sq_nonneg (p 1)])

theorem cont_norm3 : Continuous Omni.norm3 := by unfold Omni.norm3; fun_prop

namespace Omni

variable {n : ℕ} (c : Omni n)

theorem fovParameter_eq : c.fovParameter = min c.xi 1 / max c.xi 1 := by
  unfold fovParameter
  split_ifs with h
  · rw [min_eq_left h, max_eq_right h, div_one]
  · rw [min_eq_right (by linarith), max_eq_left (by linarith)]

/-- What acceptance of a point by the projection amounts to. -/
theorem accepted {c : Omni n} (hx : 0 ≤ c.xi) {p : V3} (h : -(c.fovParameter * norm3 p) < p 2) :
    0 < norm3 p ∧ 0 < p 2 + c.xi * norm3 p ∧ 0 < norm3 p + c.xi * p 2 := by
  have hd := norm3_nonneg p
  have hz := abs_le.1 (abs_z_le_norm3 p)
  have hd' : 0 < norm3 p := by
    rcases hd.lt_or_eq with h' | h'
    · exact h'
    · rw [← h'] at h hz; simp at h; linarith [hz.2]
  unfold fovParameter at h
  split_ifs at h with hxi
  · refine ⟨hd', by linarith, ?_⟩
    rcases hxi.lt_or_eq with h1 | h1
    · nlinarith
    · rw [h1] at h ⊢; linarith
  · push Not at hxi
    refine ⟨hd', by nlinarith, ?_⟩
    have : c.xi * (1 / c.xi * norm3 p) = norm3 p := by field_simp
    nlinarith

theorem lift_eq (k : V2) : c.lift k = Pinhole.lift c.toFrame k := by
  apply v2ext <;> simp [lift, Pinhole.lift] <;> ring

/-- The undone mirror: third coordinate and square root for a point on the image plane that came from `p`. -/
theorem ray_of_plane (hx : 0 ≤ c.xi) (p : V3) (h : -(c.fovParameter * norm3 p) < p 2) :
    c.liftable (c.plane p 0 * c.plane p 0 + c.plane p 1 * c.plane p 1) ∧
      c.rayZ (c.plane p 0 * c.plane p 0 + c.plane p 1 * c.plane p 1) = p 2 / (p 2 + c.xi * norm3 p) := by
  obtain ⟨hd, hs, ht⟩ := accepted hx h
  have hsq := norm3_sq p
  generalize hD : norm3 p = d at *
  have hrho : c.plane p 0 * c.plane p 0 + c.plane p 1 * c.plane p 1
      = (d ^ 2 - p 2 ^ 2) / (p 2 + c.xi * d) ^ 2 := by
    simp only [plane, hD]
    simp
    field_simp
    linarith
  have hroot : 1 + (1 - c.xi * c.xi) * ((d ^ 2 - p 2 ^ 2) / (p 2 + c.xi * d) ^ 2)
      = ((d + c.xi * p 2) / (p 2 + c.xi * d)) ^ 2 := by
    field_simp; ring
  rw [hrho]
  refine ⟨?_, ?_⟩
  · unfold liftable
    by_cases h1 : c.xi ≤ 1
    · exact Or.inl h1
    · right
      push Not at h1
      have h2 : 0 < c.xi * c.xi - 1 := by nlinarith
      rw [le_div_iff₀ h2]
      have := sq_nonneg ((d + c.xi * p 2) / (p 2 + c.xi * d))
      rw [← hroot] at this
      linarith
  · unfold rayZ
    rw [hroot, Real.sqrt_sq (by positivity)]
    have h3 : 0 < c.xi * (p 2 + c.xi * d) + (d + c.xi * p 2) := by positivity
    field_simp
    ring

end Omni

/-- **C57, point to keypoint to ray.** For every mirror parameter ≥ 0, a point accepted by the projection (it writes a
keypoint) is back-projected to a positive multiple of itself, if undistort undoes distort at the point's place on the
image plane. -/
theorem C57_ray {n : ℕ} (c : Omni n) (hu : c.fu ≠ 0) (hv : c.fv ≠ 0) (hx : 0 ≤ c.xi) (p : V3) (k : V2)
    (hk : (c.project p).1 = some k)
    (hD : c.D.undistort (c.D.distort (c.plane p)) = some (c.plane p)) :
    ∃ r : ℝ, 0 < r ∧ (c.backproject k).1 = some (r • p) ∧ (c.backproject k).2 := by
  unfold Omni.project at hk
  by_cases h : p 2 ≤ -(c.fovParameter * Omni.norm3 p)
  · simp [h] at hk
  · simp only [h, if_false] at hk
    push Not at h
    obtain ⟨hd, hs, -⟩ := Omni.accepted hx h
    obtain ⟨h1, h2⟩ := Omni.ray_of_plane c hx p h
    have hk' := Option.some.inj hk
    refine ⟨1 / (p 2 + c.xi * Omni.norm3 p), by positivity, ?_, ?_⟩
    · simp only [Omni.backproject, ← hk', Omni.lift_eq, lift_toPixel c.toFrame hu hv, hD]
      rw [if_neg (by simpa using h1)]
      simp only [h2]
      congr 1
      apply v3ext <;> simp [Omni.plane] <;> field_simp
    · simp only [Omni.backproject, ← hk', Omni.lift_eq, lift_toPixel c.toFrame hu hv, hD]
      rw [if_neg (by simpa using h1)]
      trivial

/-- **C57, keypoint to ray to keypoint.** A keypoint whose place `u` on the image plane lies inside the circle that the
mirror can reach is back-projected to a ray that projects to the keypoint. -/
theorem C57_keypoint {n : ℕ} (c : Omni n) (hu : c.fu ≠ 0) (hv : c.fv ≠ 0) (hx : 0 ≤ c.xi) (k u : V2)
    (h1 : c.D.undistort ![(k 0 - c.cu) / c.fu, (k 1 - c.cv) / c.fv] = some u)
    (h2 : c.D.distort u = ![(k 0 - c.cu) / c.fu, (k 1 - c.cv) / c.fv])
    (h3 : (c.xi ^ 2 - 1) * (u 0 ^ 2 + u 1 ^ 2) < 1) :
    ∃ p, c.backproject k = (some p, True) ∧ (c.project p).1 = some k ∧
      ((c.project p).2 ↔ 0 ≤ k 0 ∧ k 0 < c.ru ∧ 0 ≤ k 1 ∧ k 1 < c.rv) := by
  have hl : c.lift k = ![(k 0 - c.cu) / c.fu, (k 1 - c.cv) / c.fv] := Omni.lift_eq c k
  have hlift : c.liftable (u 0 * u 0 + u 1 * u 1) := by
    unfold Omni.liftable
    by_cases h : c.xi ≤ 1
    · exact Or.inl h
    · right
      push Not at h
      rw [le_div_iff₀ (by nlinarith)]
      nlinarith
  set rho2 := u 0 * u 0 + u 1 * u 1 with hrho
  have hr0 : 0 ≤ rho2 := add_nonneg (mul_self_nonneg _) (mul_self_nonneg _)
  have hrad : 0 < 1 + (1 - c.xi * c.xi) * rho2 := by nlinarith
  have hr : 0 < √(1 + (1 - c.xi * c.xi) * rho2) := Real.sqrt_pos.2 hrad
  have hr2 := Real.sq_sqrt hrad.le
  have hz : c.rayZ rho2 = 1 - c.xi * ((rho2 + 1) / (c.xi + √(1 + (1 - c.xi * c.xi) * rho2))) := by
    unfold Omni.rayZ; ring
  generalize √(1 + (1 - c.xi * c.xi) * rho2) = r at *
  have hxr : 0 < c.xi + r := by linarith
  set e := (rho2 + 1) / (c.xi + r) with he
  have he0 : 0 < e := by positivity
  have he' : e * (c.xi + r) = rho2 + 1 := by rw [he]; field_simp
  have hn : Omni.norm3 ![u 0, u 1, c.rayZ rho2] = e := by
    unfold Omni.norm3
    rw [← Real.sqrt_sq he0.le]
    congr 1
    simp [hz]
    have : u 0 ^ 2 + u 1 ^ 2 = rho2 := by rw [hrho]; ring
    have h5 : (c.xi + r) * (u 0 ^ 2 + u 1 ^ 2 + (1 - c.xi * e) ^ 2 - e ^ 2) = 0 := by
      rw [this]; clear_value rho2 e; clear * - he' hr2; grind
    have := (mul_eq_zero.1 h5).resolve_left hxr.ne'
    linarith
  have hs : c.rayZ rho2 + c.xi * e = 1 := by rw [hz]; ring
  have ht : e + c.xi * c.rayZ rho2 = r := by
    have : (c.xi + r) * (e + c.xi * c.rayZ rho2 - r) = 0 := by
      rw [hz]; clear_value rho2 e; clear * - he' hr2; grind
    have := (mul_eq_zero.1 this).resolve_left hxr.ne'
    linarith
  have hacc : ¬ (![u 0, u 1, c.rayZ rho2] : V3) 2 ≤ -(c.fovParameter * Omni.norm3 ![u 0, u 1, c.rayZ rho2]) := by
    rw [hn]; simp
    unfold Omni.fovParameter
    split_ifs with h
    · linarith
    · push Not at h
      have h6 : 0 < c.xi * (1 / c.xi * e + c.rayZ rho2) := by
        have : c.xi * (1 / c.xi * e + c.rayZ rho2) = r := by rw [← ht]; field_simp
        linarith
      have := (mul_pos_iff_of_pos_left (by linarith : 0 < c.xi)).1 h6
      linarith
  have hpl : c.plane ![u 0, u 1, c.rayZ rho2] = u := by
    apply v2ext <;> simp [Omni.plane, hn, hs]
  have hkp : c.toPixel (c.D.distort (c.plane ![u 0, u 1, c.rayZ rho2])) = k := by
    rw [hpl, h2, ← hl, Omni.lift_eq, toPixel_lift c.toFrame hu hv]
  refine ⟨![u 0, u 1, c.rayZ rho2], ?_, ?_, ?_⟩
  · simp only [Omni.backproject, hl, h1]
    rw [if_neg (by simpa using hlift)]
  · simp only [Omni.project]; rw [if_neg hacc]; simp only [hkp]
  · simp only [Omni.project]; rw [if_neg hacc]; simp only [hkp]; simp [Frame.isValid]

/-- **C57 without distortion** needs no hypothesis on the distortion. -/
theorem C57_no_distortion (c : Omni 0) (hc : c.D = noDistortion) (hu : c.fu ≠ 0) (hv : c.fv ≠ 0) (hx : 0 ≤ c.xi)
    (p : V3) (k : V2) (hk : (c.project p).1 = some k) :
    ∃ r : ℝ, 0 < r ∧ (c.backproject k).1 = some (r • p) ∧ (c.backproject k).2 :=
  C57_ray c hu hv hx p k hk (by simp [hc, noDistortion])

/-- A point behind the camera is accepted by a camera with mirror parameter 1, and the theorem applies to it. -/
example : ∃ k, ((Omni.mk ⟨400, 410, 320, 240, 640, 480, noDistortion⟩ 1).project ![3, 0, -4]).1 = some k := by
  have h : Omni.norm3 ![3, 0, -4] = 5 := by
    rw [Omni.norm3]; simp; rw [show (3:ℝ) ^ 2 + 4 ^ 2 = 5 ^ 2 by norm_num, Real.sqrt_sq (by norm_num)]
  simp only [Omni.project, Omni.fovParameter, h]
  rw [if_neg (by simp; norm_num)]
  exact ⟨_, rfl⟩

/-! ### Jacobians -/

theorem grad_norm3 (p : V3) (h : 0 < Omni.norm3 p) :
    GradAt Omni.norm3 (fun j => p j / Omni.norm3 p) p := by
  have co (i : Fin 3) := gradAt_coord (x := p) i
  have h0 : p 0 * p 0 + p 1 * p 1 + p 2 * p 2 ≠ 0 := by
    have := norm3_sq p
    intro h'
    nlinarith
  have := ((((co 0).mul (co 0)).add ((co 1).mul (co 1))).add ((co 2).mul (co 2))).sqrt h0
  have e : Omni.norm3 = fun q : V3 => √(q 0 * q 0 + q 1 * q 1 + q 2 * q 2) := by
    funext q; unfold Omni.norm3; congr 1; ring
  have e' : √(p 0 * p 0 + p 1 * p 1 + p 2 * p 2) = Omni.norm3 p := by rw [e]
  rw [e'] at this
  rw [← e] at this
  refine this.congr ?_
  funext j
  fin_cases j <;> simp <;> field_simp <;> ring

theorem jac_omni_plane {n : ℕ} (c : Omni n) (p : V3) (hd : 0 < Omni.norm3 p) (hs : 0 < p 2 + c.xi * Omni.norm3 p) :
    IsJacobianAt c.plane (c.planeJ p) p := by
  have co (i : Fin 3) := gradAt_coord (x := p) i
  have hn := grad_norm3 p hd
  have hsq := norm3_sq p
  have hr := ((co 2).add ((gradAt_const (x := p) c.xi).mul hn)).inv hs.ne'
  refine isJacobianAt_iff.2 fun i => ?_
  fin_cases i
  · refine ((co 0).mul hr).congr ?_
    funext j
    simp only [Omni.planeJ]
    generalize Omni.norm3 p = d at *
    have hs' := hs.ne'
    fin_cases j <;> simp [Omni.planeJ] <;> field_simp <;> clear * - hsq <;> grind
  · refine ((co 1).mul hr).congr ?_
    funext j
    simp only [Omni.planeJ]
    generalize Omni.norm3 p = d at *
    have hs' := hs.ne'
    fin_cases j <;> simp [Omni.planeJ] <;> field_simp <;> clear * - hsq <;> grind

/-- **C55, omnidirectional, point.** For every accepted point the Jacobian returned with the projection is the derivative
of the keypoint, if the distortion's Jacobian is the derivative of the distortion there. -/
theorem C55_omni_point {n : ℕ} (c : Omni n) (hx : 0 ≤ c.xi) (p : V3) (k : V2) (hk : (c.project p).1 = some k)
    (hD : PointJacobianCorrect c.D (c.plane p)) :
    ∃ J, c.projectJ p = some J ∧ IsPartialJacobianAt (fun q => (c.project q).1) J p := by
  have h : ¬ p 2 ≤ -(c.fovParameter * Omni.norm3 p) := by
    intro h; simp [Omni.project, h] at hk
  obtain ⟨Jd, h1, h2⟩ := hD
  push Not at h
  obtain ⟨hd, hs, -⟩ := Omni.accepted hx h
  have hc := h2.comp (jac_omni_plane c p hd hs)
  have hev : ∀ᶠ q in nhds p, -(c.fovParameter * Omni.norm3 q) < q 2 := by
    have c1 : Continuous fun q : V3 => -(c.fovParameter * Omni.norm3 q) := (continuous_const.mul cont_norm3).neg
    have c2 : Continuous fun q : V3 => q 2 := continuous_apply 2
    exact (c1.continuousAt.eventually_lt c2.continuousAt h)
  refine ⟨_, by simp only [Omni.projectJ, not_le.2 h, if_false, h1, Option.map_some]; rfl,
    fun q => c.toPixel (c.D.distort (c.plane q)), ?_, ?_⟩
  · filter_upwards [hev] with q hq
    simp only [Omni.project, not_le.2 hq, if_false]
  · convert jac_toPixel c.toFrame hc using 1
    ext i j
    fin_cases i <;> fin_cases j <;> simp [Matrix.mul_apply, Fin.sum_univ_two, -mul_eq_mul_left_iff] <;> ring

/-- **C55, omnidirectional, intrinsics.** For every accepted point the intrinsics Jacobian is the derivative of the
keypoint with respect to the update vector (ξ, fu, fv, cu, cv). -/
theorem C55_omni_intrinsics {n : ℕ} (c : Omni n) (hx : 0 ≤ c.xi) (p : V3) (k : V2) (hk : (c.project p).1 = some k)
    (hD : PointJacobianCorrect c.D (c.plane p)) :
    ∃ J, c.intrinsicsJ p = some J ∧ IsPartialJacobianAt (fun v => ((c.update v).project p).1) J 0 := by
  have h : ¬ p 2 ≤ -(c.fovParameter * Omni.norm3 p) := by
    intro h; simp [Omni.project, h] at hk
  obtain ⟨Jd, h1, h2⟩ := hD
  push Not at h
  obtain ⟨hd, hs, -⟩ := Omni.accepted hx h
  have hev : ∀ᶠ v : Fin 5 → ℝ in nhds 0, -((c.update v).fovParameter * Omni.norm3 p) < p 2 := by
    have c1 : Continuous fun v : Fin 5 → ℝ => -((c.update v).fovParameter * Omni.norm3 p) := by
      simp only [Omni.fovParameter_eq, Omni.update]
      refine (Continuous.mul (Continuous.div (by fun_prop) (by fun_prop) ?_) continuous_const).neg
      intro v
      have := le_max_right (c.xi + v 0) 1
      linarith
    have : -((c.update 0).fovParameter * Omni.norm3 p) < p 2 := by simpa [Omni.fovParameter, Omni.update] using h
    exact c1.continuousAt.eventually_lt continuousAt_const this
  have co (i : Fin 5) := gradAt_coord (x := (0 : Fin 5 → ℝ)) i
  have K (c : ℝ) := gradAt_const (x := (0 : Fin 5 → ℝ)) c
  have hs0 : p 2 + (c.xi + (0 : Fin 5 → ℝ) 0) * Omni.norm3 p ≠ 0 := by simpa using hs.ne'
  have hr := ((K (p 2)).add (((K c.xi).add (co 0)).mul (K (Omni.norm3 p)))).inv hs0
  have hplane : IsJacobianAt (fun v => (c.update v).plane p)
      (!![-c.plane p 0 * Omni.norm3 p * (1 / (p 2 + c.xi * Omni.norm3 p)), 0, 0, 0, 0;
          -c.plane p 1 * Omni.norm3 p * (1 / (p 2 + c.xi * Omni.norm3 p)), 0, 0, 0, 0]) 0 := by
    refine isJacobianAt_iff.2 fun i => ?_
    fin_cases i
    · refine ((K (p 0)).mul hr).congr ?_
      funext j; fin_cases j <;> simp [Omni.plane] <;> field_simp
    · refine ((K (p 1)).mul hr).congr ?_
      funext j; fin_cases j <;> simp [Omni.plane] <;> field_simp
  have h0 : (c.update 0).plane p = c.plane p := by simp [Omni.plane, Omni.update]
  have hc : IsJacobianAt (fun v => c.D.distort ((c.update v).plane p)) _ 0 :=
    IsJacobianAt.comp (g := fun v => (c.update v).plane p) (by rw [h0]; exact h2) hplane
  rw [isJacobianAt_iff] at hc
  refine ⟨_, by simp only [Omni.intrinsicsJ, h1, Option.map_some]; rfl,
    fun v => (c.update v).toPixel (c.D.distort ((c.update v).plane p)), ?_, isJacobianAt_iff.2 fun i => ?_⟩
  · filter_upwards [hev] with v hv
    simp only [Omni.project, not_le.2 hv, if_false]
    rfl
  · fin_cases i
    · refine ((((K c.fu).add (co 1)).mul (hc 0)).add ((K c.cu).add (co 3))).congr ?_
      funext j; fin_cases j <;> simp [Matrix.mul_apply, Fin.sum_univ_two, h0] <;> ring
    · refine ((((K c.fv).add (co 2)).mul (hc 1)).add ((K c.cv).add (co 4))).congr ?_
      funext j; fin_cases j <;> simp [Matrix.mul_apply, Fin.sum_univ_two, h0] <;> ring

/-- **C55, omnidirectional, distortion parameters.** -/
theorem C55_omni_distortion {n : ℕ} (c : Omni n) (F : (Fin n → ℝ) → Distortion n) (k : Fin n → ℝ)
    (hc : c.D = F k) (p : V3) (kp : V2) (hk : (c.project p).1 = some kp) (hD : ParamJacobianCorrect F k (c.plane p)) :
    ∃ J, c.distortionJ p = some J ∧
      IsPartialJacobianAt (fun k' => ((Omni.mk { c.toFrame with D := F k' } c.xi).project p).1) J k := by
  have h : ¬ p 2 ≤ -(c.fovParameter * Omni.norm3 p) := by
    intro h; simp [Omni.project, h] at hk
  obtain ⟨J, h1, h2⟩ := hD
  refine ⟨_, by simp only [Omni.distortionJ, hc, h1, Option.map_some],
    fun k' => c.toPixel ((F k').distort (c.plane p)), Filter.Eventually.of_forall fun k' => ?_,
    jac_toPixel c.toFrame h2⟩
  simp only [Omni.project]
  split_ifs with h'
  · exact absurd h' h
  · rfl

theorem hasDerivAt_rayZ {n : ℕ} (c : Omni n) (hx : 0 ≤ c.xi) (r : ℝ) (h : 0 < 1 + (1 - c.xi * c.xi) * r) :
    HasDerivAt c.rayZ (-c.xi / 2 * (2 * (1 / (c.xi + √(1 + (1 - c.xi * c.xi) * r)))
      + (1 / (c.xi + √(1 + (1 - c.xi * c.xi) * r))) ^ 2 * (c.xi * c.xi - 1)
        * (1 / √(1 + (1 - c.xi * c.xi) * r)) * (r + 1))) r := by
  have hr := Real.sqrt_pos.2 h
  have d1 : HasDerivAt (fun r => 1 + (1 - c.xi * c.xi) * r) (1 - c.xi * c.xi) r := by
    simpa using ((hasDerivAt_id r).const_mul (1 - c.xi * c.xi)).const_add 1
  have d2 := d1.sqrt h.ne'
  have d3 := ((hasDerivAt_id r).add_const (1 : ℝ)).const_mul c.xi
  have d4 := d2.const_add c.xi
  have d5 := (d3.fun_div d4 (by positivity)).const_sub 1
  refine d5.congr_deriv ?_
  simp only [id]
  generalize √(1 + (1 - c.xi * c.xi) * r) = t at *
  have : 0 < c.xi + t := by positivity
  field_simp
  ring

/-- **C55, omnidirectional, back-projection.** For a keypoint inside the circle the mirror can reach, the Jacobian
returned by keypointToEuclidean is the derivative of the ray, if the Jacobian of undistort is right. -/
theorem C55_omni_ray {n : ℕ} (c : Omni n) (hx : 0 ≤ c.xi) (k u : V2) (J : M2)
    (h0 : c.D.undistort (c.lift k) = some u) (h1 : c.D.undistortJ (c.lift k) = some (u, J))
    (h2 : IsPartialJacobianAt c.D.undistort J (c.lift k)) (h3 : (c.xi ^ 2 - 1) * (u 0 ^ 2 + u 1 ^ 2) < 1) :
    ∃ K, c.backprojectJ k = some K ∧ IsPartialJacobianAt (fun q => (c.backproject q).1) K k := by
  have hopen : ∀ v : V2, (c.xi ^ 2 - 1) * (v 0 ^ 2 + v 1 ^ 2) < 1 → c.liftable (v 0 * v 0 + v 1 * v 1) := by
    intro v hv
    unfold Omni.liftable
    by_cases h : c.xi ≤ 1
    · exact Or.inl h
    · right
      push Not at h
      rw [le_div_iff₀ (by nlinarith)]
      nlinarith
  have hl := hopen u h3
  have hlf : (fun q => c.lift q) = fun q => Pinhole.lift c.toFrame q := by funext q; exact Omni.lift_eq c q
  obtain ⟨g, hg, hgJ⟩ := h2
  have hgu : g (c.lift k) = u := Option.some.inj (hg.self_of_nhds.symm.trans h0)
  have hlJ : IsJacobianAt (fun q => c.lift q) (!![1 / c.fu, 0; 0, 1 / c.fv] : M2) k := by
    rw [hlf]; exact jac_lift c.toFrame k
  have hlc : Continuous fun q => c.lift q := by rw [hlf]; exact cont_lift c.toFrame
  have hgl := hgJ.comp hlJ
  have hgc : ContinuousAt (fun q => g (c.lift q)) k := HasFDerivAt.continuousAt hgl
  have hrow := isJacobianAt_iff.1 hgl
  have hrho : 0 < 1 + (1 - c.xi * c.xi) * (u 0 * u 0 + u 1 * u 1) := by nlinarith
  have hz : GradAt (fun q => c.rayZ (g (c.lift q) 0 * g (c.lift q) 0 + g (c.lift q) 1 * g (c.lift q) 1)) _ k :=
    GradAt.comp (φ := c.rayZ) (by rw [hgu]; exact hasDerivAt_rayZ c hx _ hrho)
      (((hrow 0).mul (hrow 0)).add ((hrow 1).mul (hrow 1)))
  refine ⟨_, by simp only [Omni.backprojectJ, h1]; rw [if_neg (by simpa using hl)],
    fun q => ![g (c.lift q) 0, g (c.lift q) 1,
      c.rayZ (g (c.lift q) 0 * g (c.lift q) 0 + g (c.lift q) 1 * g (c.lift q) 1)], ?_,
    isJacobianAt_iff.2 fun i => ?_⟩
  · have e1 : ∀ᶠ q in nhds k, (c.xi ^ 2 - 1) * (g (c.lift q) 0 ^ 2 + g (c.lift q) 1 ^ 2) < 1 := by
      have hc0 : ContinuousAt (fun q => g (c.lift q) 0) k := (continuous_apply 0).continuousAt.comp hgc
      have hc1 : ContinuousAt (fun q => g (c.lift q) 1) k := (continuous_apply 1).continuousAt.comp hgc
      refine ContinuousAt.eventually_lt (((hc0.pow 2).add (hc1.pow 2)).const_mul _) continuousAt_const ?_
      simpa [hgu] using h3
    filter_upwards [e1, hlc.continuousAt.eventually hg] with q hq1 hq2
    simp only [Omni.backproject, hq2]
    rw [if_neg (by simpa using hopen _ hq1)]
  · fin_cases i
    · refine (hrow 0).congr ?_
      funext j; fin_cases j <;> simp [Matrix.mul_apply, Fin.sum_univ_two]
    · refine (hrow 1).congr ?_
      funext j; fin_cases j <;> simp [Matrix.mul_apply, Fin.sum_univ_two]
    · refine hz.congr ?_
      have e : 1 + (1 - c.xi * c.xi) * (u 0 * u 0 + u 1 * u 1) = -(u 0 * u 0 + u 1 * u 1) * (c.xi * c.xi - 1) + 1 := by
        ring
      rw [e]
      generalize √(-(u 0 * u 0 + u 1 * u 1) * (c.xi * c.xi - 1) + 1) = t
      have e2 : (1 / (c.xi + t)) ^ 2 = (1 / (c.xi + t)) * (1 / (c.xi + t)) := by ring
      rw [e2]
      generalize 1 / (c.xi + t) = a
      funext j; fin_cases j <;> simp [Matrix.mul_apply, Fin.sum_univ_two, hgu] <;> ring

/-! ### Homogeneous points -/

theorem norm3_smul {a : ℝ} (ha : 0 < a) (p : V3) : Omni.norm3 (a • p) = a * Omni.norm3 p := by
  unfold Omni.norm3
  rw [show (a • p) 0 ^ 2 + (a • p) 1 ^ 2 + (a • p) 2 ^ 2 = a ^ 2 * (p 0 ^ 2 + p 1 ^ 2 + p 2 ^ 2) by
    simp; ring, Real.sqrt_mul (by positivity), Real.sqrt_sq ha.le]

theorem omni_project_smul {n : ℕ} (c : Omni n) {a : ℝ} (ha : 0 < a) (p : V3) : c.project (a • p) = c.project p := by
  have hpl : c.plane (a • p) = c.plane p := by
    have : a * p 2 + c.xi * (a * Omni.norm3 p) = a * (p 2 + c.xi * Omni.norm3 p) := by ring
    by_cases h : p 2 + c.xi * Omni.norm3 p = 0
    · apply v2ext <;> simp [Omni.plane, norm3_smul ha, this, h]
    · apply v2ext <;> simp [Omni.plane, norm3_smul ha, this] <;> field_simp
  have hif : (a • p) 2 ≤ -(c.fovParameter * Omni.norm3 (a • p)) ↔ p 2 ≤ -(c.fovParameter * Omni.norm3 p) := by
    rw [norm3_smul ha]
    simp
    rw [show -(c.fovParameter * (a * Omni.norm3 p)) = a * -(c.fovParameter * Omni.norm3 p) by ring]
    exact mul_le_mul_iff_right₀ ha
  simp only [Omni.project, hpl, hif]

theorem smul_head3 {ph : V4} (h : ph 3 < 0) : (1 / ph 3) • head3 ph = (-(1 / ph 3)) • (-head3 ph) := by
  rw [smul_neg, neg_smul, neg_neg]

/-- **C56, omnidirectional.** A homogeneous point with non-zero scale and its negation project alike, with or without the
Jacobian being requested, and like the point divided by its scale. -/
theorem C56_omni_partial {n : ℕ} (c : Omni n) (ph : V4) (h : ph 3 ≠ 0) :
    c.projectH (-ph) = c.projectH ph ∧ c.projectHJ ph = c.projectH ph ∧ c.projectHJ (-ph) = c.projectH ph ∧
      c.projectH ph = c.project ((1 / ph 3) • head3 ph) := by
  unfold Omni.projectH Omni.projectHJ
  rw [head3_neg, neg_neg, Pi.neg_apply]
  rcases lt_or_gt_of_ne h with h | h
  · rw [if_neg (by linarith), if_pos h]
    refine ⟨rfl, rfl, rfl, ?_⟩
    rw [smul_head3 h, omni_project_smul c (by simpa using h)]
  · rw [if_pos (by linarith), if_neg (by linarith)]
    refine ⟨rfl, rfl, rfl, ?_⟩
    rw [omni_project_smul c (by positivity)]

theorem jac_head3 (ph : V4) : IsJacobianAt head3 (widen (1 : Matrix (Fin 3) (Fin 3) ℝ)) ph := by
  refine isJacobianAt_iff.2 fun i => ?_
  fin_cases i
  · refine (gradAt_coord (x := ph) 0).congr ?_
    funext j; fin_cases j <;> simp [widen, Matrix.one_apply]
  · refine (gradAt_coord (x := ph) 1).congr ?_
    funext j; fin_cases j <;> simp [widen, Matrix.one_apply]
  · refine (gradAt_coord (x := ph) 2).congr ?_
    funext j; fin_cases j <;> simp [widen, Matrix.one_apply]

theorem jac_neg_head3 (ph : V4) : IsJacobianAt (fun q => -head3 q) (-widen (1 : Matrix (Fin 3) (Fin 3) ℝ)) ph := by
  have := isJacobianAt_iff.1 (jac_head3 ph)
  exact isJacobianAt_iff.2 fun i => (this i).neg

theorem mul_widen {m : ℕ} (J : Matrix (Fin m) (Fin 3) ℝ) : J * widen 1 = widen J := by
  ext i j
  fin_cases j <;> simp [widen, Matrix.mul_apply, Fin.sum_univ_three, Matrix.one_apply]

theorem IsPartialJacobianAt.comp {l m n : ℕ} {f : (Fin m → ℝ) → Option (Fin l → ℝ)} {h : (Fin n → ℝ) → (Fin m → ℝ)}
    {J : Matrix (Fin l) (Fin m) ℝ} {K : Matrix (Fin m) (Fin n) ℝ} {x : Fin n → ℝ}
    (hf : IsPartialJacobianAt f J (h x)) (hh : IsJacobianAt h K x) : IsPartialJacobianAt (fun z => f (h z)) (J * K) x := by
  obtain ⟨g, h1, h2⟩ := hf
  have hc : ContinuousAt h x := HasFDerivAt.continuousAt hh
  exact ⟨fun z => g (h z), hc.eventually h1, h2.comp hh⟩

theorem IsPartialJacobianAt.congr_of_eventuallyEq {m n : ℕ} {f g : (Fin n → ℝ) → Option (Fin m → ℝ)}
    {J : Matrix (Fin m) (Fin n) ℝ} {x : Fin n → ℝ} (hf : IsPartialJacobianAt f J x) (e : g =ᶠ[nhds x] f) :
    IsPartialJacobianAt g J x := by
  obtain ⟨h, h1, h2⟩ := hf
  refine ⟨h, ?_, h2⟩
  filter_upwards [e, h1] with z e1 e2
  rw [e1, e2]

theorem ev_neg (ph : V4) (h : ph 3 < 0) : ∀ᶠ q : V4 in nhds ph, q 3 < 0 :=
  (continuous_apply 3).continuousAt.eventually_lt continuousAt_const h

theorem ev_pos (ph : V4) (h : 0 < ph 3) : ∀ᶠ q : V4 in nhds ph, 0 < q 3 :=
  continuousAt_const.eventually_lt (continuous_apply 3).continuousAt h

/-- **C55, omnidirectional, homogeneous points.** The Jacobian returned by homogeneousToKeypoint is the derivative of the
keypoint with respect to the homogeneous point, for either sign of the scale. -/
theorem C55_omni_homogeneous {n : ℕ} (c : Omni n) (hx : 0 ≤ c.xi) (ph : V4) (h : ph 3 ≠ 0) (k : V2)
    (hk : (c.projectH ph).1 = some k)
    (hD : PointJacobianCorrect c.D (c.plane ((1 / ph 3) • head3 ph))) :
    ∃ J, c.projectHJac ph = some J ∧ IsPartialJacobianAt (fun q => (c.projectH q).1) J ph := by
  have hplane : ∀ {a : ℝ} (p : V3), 0 < a → c.plane (a • p) = c.plane p := by
    intro a p ha
    have : a * p 2 + c.xi * (a * Omni.norm3 p) = a * (p 2 + c.xi * Omni.norm3 p) := by ring
    by_cases h : p 2 + c.xi * Omni.norm3 p = 0
    · apply v2ext <;> simp [Omni.plane, norm3_smul ha, this, h]
    · apply v2ext <;> simp [Omni.plane, norm3_smul ha, this] <;> field_simp
  rcases lt_or_gt_of_ne h with h | h
  · rw [smul_head3 h, hplane _ (by simpa using h)] at hD
    simp only [Omni.projectH, h, if_true] at hk
    obtain ⟨J, h1, h2⟩ := C55_omni_point c hx _ k hk hD
    refine ⟨-widen J, by simp only [Omni.projectHJac, h, if_true, h1, Option.map_some], ?_⟩
    have := IsPartialJacobianAt.comp (h := fun q => -head3 q) h2 (jac_neg_head3 ph)
    rw [Matrix.mul_neg, mul_widen] at this
    refine this.congr_of_eventuallyEq ?_
    filter_upwards [ev_neg ph h] with q hq
    simp only [Omni.projectH, hq, if_true]
  · rw [hplane _ (by positivity)] at hD
    simp only [Omni.projectH, not_lt.2 h.le, if_false] at hk
    obtain ⟨J, h1, h2⟩ := C55_omni_point c hx _ k hk hD
    refine ⟨widen J, by simp only [Omni.projectHJac, not_lt.2 h.le, if_false, h1, Option.map_some], ?_⟩
    have := IsPartialJacobianAt.comp h2 (jac_head3 ph)
    rw [mul_widen] at this
    refine this.congr_of_eventuallyEq ?_
    filter_upwards [ev_pos ph h] with q hq
    simp only [Omni.projectH, not_lt.2 hq.le, if_false]

/-- **C55, pinhole, homogeneous points.** The Jacobian returned by homogeneousToKeypoint is the derivative of the keypoint
with respect to the homogeneous point, for either sign of the scale. -/
theorem C55_pinhole_homogeneous {n : ℕ} (c : Frame n) (ph : V4) (hz : ph 2 ≠ 0)
    (hD : PointJacobianCorrect c.D ![ph 0 / ph 2, ph 1 / ph 2]) :
    ∃ J, Pinhole.projectHJac c ph = some J ∧ IsPartialJacobianAt (fun q => (Pinhole.projectH c q).1) J ph := by
  obtain ⟨J, h1, h2⟩ := C55_pinhole_point c (head3 ph) (by simpa [head3] using hz) (by simpa [head3] using hD)
  refine ⟨widen J, by simp only [Pinhole.projectHJac, h1, Option.map_some], ?_⟩
  have := IsPartialJacobianAt.comp h2 (jac_head3 ph)
  rw [mul_widen] at this
  refine this.congr_of_eventuallyEq (Filter.Eventually.of_forall fun q => ?_)
  exact (C56_pinhole_jacobian_partial c q).2.symm

end Kalibr.Camera
