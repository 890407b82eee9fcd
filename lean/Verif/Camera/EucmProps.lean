import Verif.Camera.OmniProps

/-!
The extended unified projection: back-projection (C86), Jacobians (C55) and homogeneous points (C56).
-/

namespace Kalibr.Camera

open Real

set_option linter.unusedSimpArgs false

namespace EUCM

variable {n : ℕ} (c : EUCM n)

theorem dist_nonneg (p : V3) : 0 ≤ c.dist p := Real.sqrt_nonneg _

theorem dist_sq (hb : 0 ≤ c.beta) (p : V3) : c.dist p ^ 2 = c.beta * (p 0 * p 0 + p 1 * p 1) + p 2 * p 2 := by
  have h := mul_nonneg hb (add_nonneg (mul_self_nonneg (p 0)) (mul_self_nonneg (p 1)))
  exact Real.sq_sqrt (add_nonneg h (mul_self_nonneg _))

theorem abs_z_le_dist (hb : 0 ≤ c.beta) (p : V3) : |p 2| ≤ c.dist p := by
  have h := mul_nonneg hb (add_nonneg (mul_self_nonneg (p 0)) (mul_self_nonneg (p 1)))
  refine Real.abs_le_sqrt ?_
  nlinarith

theorem fovParameter_eq : c.fovParameter = min c.alpha (1 - c.alpha) / max c.alpha (1 - c.alpha) := by
  unfold fovParameter
  split_ifs with h
  · rw [min_eq_left (by linarith), max_eq_right (by linarith)]
  · rw [min_eq_right (by linarith), max_eq_left (by linarith)]

/-- What acceptance of a point by the projection amounts to. -/
theorem accepted {c : EUCM n} (ha : 0 ≤ c.alpha) (ha' : c.alpha ≤ 1) (hb : 0 ≤ c.beta) {p : V3}
    (h : -(c.fovParameter * c.dist p) < p 2) :
    0 < c.dist p ∧ 0 < c.norm p ∧ 0 < (1 - c.alpha) * c.dist p + c.alpha * p 2 := by
  have hd := c.dist_nonneg p
  have hz := abs_le.1 (c.abs_z_le_dist hb p)
  have hd' : 0 < c.dist p := by
    rcases hd.lt_or_eq with h' | h'
    · exact h'
    · rw [← h'] at h hz; simp at h; linarith [hz.2]
  unfold norm
  unfold fovParameter at h
  generalize c.dist p = d at *
  split_ifs at h with hxi
  · have h1 : 0 < 1 - c.alpha := by linarith
    have h2 : (1 - c.alpha) * (c.alpha / (1 - c.alpha) * d) = c.alpha * d := by field_simp
    have h3 : 0 < c.alpha * d + (1 - c.alpha) * p 2 := by nlinarith
    refine ⟨hd', h3, ?_⟩
    rcases hxi.lt_or_eq with h4 | h4
    · nlinarith
    · rw [h4] at h3 ⊢; linarith
  · push Not at hxi
    have h1 : 0 < c.alpha := by linarith
    have h2 : c.alpha * ((1 - c.alpha) / c.alpha * d) = (1 - c.alpha) * d := by field_simp
    exact ⟨hd', by nlinarith, by nlinarith⟩

theorem lift_eq (k : V2) : c.lift k = Pinhole.lift c.toFrame k := by
  apply v2ext <;> simp [lift, Pinhole.lift] <;> ring

/-- The undone projection: for a point on the image plane that came from `p`. -/
theorem ray_of_plane (ha : 0 ≤ c.alpha) (ha' : c.alpha ≤ 1) (hb : 0 < c.beta) (p : V3)
    (hN : 0 < c.norm p) (ht : 0 < (1 - c.alpha) * c.dist p + c.alpha * p 2) :
    c.liftable (c.plane p 0 * c.plane p 0 + c.plane p 1 * c.plane p 1) ∧
      c.rayK (c.plane p 0 * c.plane p 0 + c.plane p 1 * c.plane p 1) = p 2 / c.norm p := by
  have hsq := c.dist_sq hb.le p
  have hnorm : c.norm p = c.alpha * c.dist p + (1 - c.alpha) * p 2 := rfl
  have hrho : c.beta * (c.plane p 0 * c.plane p 0 + c.plane p 1 * c.plane p 1)
      = (c.dist p ^ 2 - p 2 ^ 2) / c.norm p ^ 2 := by
    simp only [plane]
    simp
    field_simp
    linarith
  generalize c.dist p = d at *
  generalize c.norm p = N at *
  generalize c.plane p 0 * c.plane p 0 + c.plane p 1 * c.plane p 1 = r2 at *
  have hroot : 1 - (c.alpha - (1 - c.alpha)) * c.beta * r2 = (((1 - c.alpha) * d + c.alpha * p 2) / N) ^ 2 := by
    rw [mul_assoc, hrho]
    field_simp
    rw [hnorm]
    ring
  refine ⟨?_, ?_⟩
  · unfold liftable
    by_cases h1 : c.alpha ≤ 1 / 2
    · exact Or.inl h1
    · right
      push Not at h1
      have h2 : 0 < c.beta * (2 * c.alpha - 1) := mul_pos hb (by linarith)
      rw [le_div_iff₀ h2]
      have := sq_nonneg (((1 - c.alpha) * d + c.alpha * p 2) / N)
      rw [← hroot] at this
      linarith
  · unfold rayK
    simp only
    rw [hroot, Real.sqrt_sq (by positivity)]
    have h1 : 1 - c.alpha * c.alpha * c.beta * r2 = 1 - c.alpha * c.alpha * ((d ^ 2 - p 2 ^ 2) / N ^ 2) := by
      rw [← hrho]; ring
    rw [h1]
    have h3 : 0 < c.alpha * ((1 - c.alpha) * d + c.alpha * p 2) + (1 - c.alpha) * N := by
      rcases ha.lt_or_eq with h | h
      · have : 0 ≤ (1 - c.alpha) * N := mul_nonneg (by linarith) hN.le
        have := mul_pos h ht
        linarith
      · rw [← h]; simpa using hN
    have h4 : c.alpha * (((1 - c.alpha) * d + c.alpha * p 2) / N) + (1 - c.alpha)
        = (c.alpha * ((1 - c.alpha) * d + c.alpha * p 2) + (1 - c.alpha) * N) / N := by field_simp
    rw [h4]
    obtain ⟨B, hB⟩ : ∃ B, B = c.alpha * ((1 - c.alpha) * d + c.alpha * p 2) + (1 - c.alpha) * N := ⟨_, rfl⟩
    rw [← hB] at h3 ⊢
    field_simp
    rw [hB, hnorm]
    ring

/-- The facts about the back-projected ray before it is normalised. -/
theorem rayK_facts (ha : 0 ≤ c.alpha) (ha' : c.alpha ≤ 1) (r2 : ℝ) (hr : 0 ≤ c.beta * r2)
    (h : (2 * c.alpha - 1) * (c.beta * r2) < 1) :
    ∃ d, 0 ≤ d ∧ d ^ 2 = c.beta * r2 + c.rayK r2 ^ 2 ∧ c.alpha * d + (1 - c.alpha) * c.rayK r2 = 1 ∧
      0 < (1 - c.alpha) * d + c.alpha * c.rayK r2 := by
  have hq : 0 < 1 - (c.alpha - (1 - c.alpha)) * c.beta * r2 := by nlinarith
  have hq1 := Real.sqrt_pos.2 hq
  have hq2 := Real.sq_sqrt hq.le
  have hk : c.rayK r2 = (1 - c.alpha * c.alpha * c.beta * r2)
    / (c.alpha * √(1 - (c.alpha - (1 - c.alpha)) * c.beta * r2) + (1 - c.alpha)) := rfl
  generalize √(1 - (c.alpha - (1 - c.alpha)) * c.beta * r2) = q at *
  have hB : 0 < c.alpha * q + (1 - c.alpha) := by
    rcases ha.lt_or_eq with h | h
    · have := mul_pos h hq1
      linarith
    · rw [← h]; norm_num
  have hq2' : q ^ 2 = 1 - (2 * c.alpha - 1) * (c.beta * r2) := by rw [hq2]; ring
  have hk' : c.rayK r2 = (1 - c.alpha ^ 2 * (c.beta * r2)) / (c.alpha * q + (1 - c.alpha)) := by rw [hk]; ring_nf
  generalize c.beta * r2 = b at *
  generalize c.rayK r2 = k at *
  obtain ⟨B, hBe⟩ : ∃ B, B = c.alpha * q + (1 - c.alpha) := ⟨_, rfl⟩
  rw [← hBe] at hB hk'
  refine ⟨(q + c.alpha * (1 - c.alpha) * b) / B, ?_, ?_, ?_, ?_⟩
  · have : 0 ≤ c.alpha * (1 - c.alpha) * b := mul_nonneg (mul_nonneg ha (by linarith)) hr
    positivity
  · rw [hk', div_pow, div_pow]
    field_simp
    rw [hBe]
    clear * - hq2'
    grind
  · rw [hk']; field_simp; rw [hBe]; ring
  · have : (1 - c.alpha) * ((q + c.alpha * (1 - c.alpha) * b) / B) + c.alpha * k = q := by
      rw [hk']
      field_simp
      rw [hBe]
      clear * - hq2'
      grind
    rw [this]; exact hq1

theorem dist_smul (hb : 0 ≤ c.beta) {a : ℝ} (ha : 0 < a) (p : V3) : c.dist (a • p) = a * c.dist p := by
  unfold dist
  have h := mul_nonneg hb (add_nonneg (mul_self_nonneg (p 0)) (mul_self_nonneg (p 1)))
  have h' := mul_self_nonneg (p 2)
  rw [show c.beta * ((a • p) 0 * (a • p) 0 + (a • p) 1 * (a • p) 1) + (a • p) 2 * (a • p) 2
      = a ^ 2 * (c.beta * (p 0 * p 0 + p 1 * p 1) + p 2 * p 2) by simp; ring, Real.sqrt_mul (by positivity),
    Real.sqrt_sq ha.le]

theorem plane_smul (hb : 0 ≤ c.beta) {a : ℝ} (ha : 0 < a) (p : V3) : c.plane (a • p) = c.plane p := by
  have hn : c.norm (a • p) = a * c.norm p := by
    unfold norm; rw [c.dist_smul hb ha]; simp; ring
  by_cases h : c.norm p = 0
  · apply v2ext <;> simp [plane, hn, h]
  · apply v2ext <;> simp [plane, hn] <;> field_simp

theorem project_smul (hb : 0 ≤ c.beta) {a : ℝ} (ha : 0 < a) (p : V3) : c.project (a • p) = c.project p := by
  have hif : (a • p) 2 ≤ -(c.fovParameter * c.dist (a • p)) ↔ p 2 ≤ -(c.fovParameter * c.dist p) := by
    rw [c.dist_smul hb ha]
    simp
    rw [show -(c.fovParameter * (a * c.dist p)) = a * -(c.fovParameter * c.dist p) by ring]
    exact mul_le_mul_iff_right₀ ha
  simp only [project, c.plane_smul hb ha, hif]

end EUCM

/-- **C86, point to keypoint to ray.** For every α in [0, 1] and β > 0, a point accepted by the projection (it writes a
keypoint) is back-projected to itself divided by its length. -/
theorem C86_ray {n : ℕ} (c : EUCM n) (hu : c.fu ≠ 0) (hv : c.fv ≠ 0) (ha : 0 ≤ c.alpha) (ha' : c.alpha ≤ 1)
    (hb : 0 < c.beta) (p : V3) (k : V2) (hk : (c.project p).1 = some k) :
    c.backproject k = (some ((1 / √(p 0 ^ 2 + p 1 ^ 2 + p 2 ^ 2)) • p), True) ∧
      0 < p 0 ^ 2 + p 1 ^ 2 + p 2 ^ 2 := by
  unfold EUCM.project at hk
  by_cases h : p 2 ≤ -(c.fovParameter * c.dist p)
  · simp [h] at hk
  · simp only [h, if_false] at hk
    push Not at h
    obtain ⟨hd, hN, ht⟩ := EUCM.accepted ha ha' hb.le h
    obtain ⟨h1, h2⟩ := EUCM.ray_of_plane c ha ha' hb p hN ht
    have hk' := Option.some.inj hk
    have hpos : 0 < p 0 ^ 2 + p 1 ^ 2 + p 2 ^ 2 := by
      have hsq := c.dist_sq hb.le p
      have : 0 < c.dist p ^ 2 := by positivity
      by_contra hc
      have e0 : p 0 = 0 := by nlinarith [sq_nonneg (p 0), sq_nonneg (p 1), sq_nonneg (p 2)]
      have e1 : p 1 = 0 := by nlinarith [sq_nonneg (p 0), sq_nonneg (p 1), sq_nonneg (p 2)]
      have e2 : p 2 = 0 := by nlinarith [sq_nonneg (p 0), sq_nonneg (p 1), sq_nonneg (p 2)]
      rw [hsq, e0, e1, e2] at this
      simp at this
    refine ⟨?_, hpos⟩
    have hlk : c.lift k = c.plane p := by rw [← hk', EUCM.lift_eq, lift_toPixel c.toFrame hu hv]
    simp only [EUCM.backproject]
    rw [if_neg (by rw [hlk]; simpa using h1), hlk, h2]
    have hs : c.plane p 0 * c.plane p 0 + c.plane p 1 * c.plane p 1 + p 2 / c.norm p * (p 2 / c.norm p)
        = (1 / c.norm p) ^ 2 * (p 0 ^ 2 + p 1 ^ 2 + p 2 ^ 2) := by
      simp [EUCM.plane]; ring
    rw [hs, Real.sqrt_mul (by positivity), Real.sqrt_sq (by positivity)]
    have := Real.sqrt_pos.2 hpos
    congr 2
    apply v3ext <;> simp [EUCM.plane] <;> field_simp

/-- **C86, keypoint to ray to keypoint.** A keypoint whose place on the image plane lies inside the circle that the model
can reach is back-projected to a ray of length one that projects to the keypoint. -/
theorem C86_keypoint {n : ℕ} (c : EUCM n) (hu : c.fu ≠ 0) (hv : c.fv ≠ 0) (ha : 0 ≤ c.alpha) (ha' : c.alpha ≤ 1)
    (hb : 0 < c.beta) (k : V2)
    (h : (2 * c.alpha - 1) * (c.beta * (((k 0 - c.cu) / c.fu) ^ 2 + ((k 1 - c.cv) / c.fv) ^ 2)) < 1) :
    ∃ p, c.backproject k = (some p, True) ∧ p 0 ^ 2 + p 1 ^ 2 + p 2 ^ 2 = 1 ∧ (c.project p).1 = some k ∧
      ((c.project p).2 ↔ 0 ≤ k 0 ∧ k 0 < c.ru ∧ 0 ≤ k 1 ∧ k 1 < c.rv) := by
  have hl := EUCM.lift_eq c k
  set m := c.lift k with hm
  set r2 := m 0 * m 0 + m 1 * m 1 with hr2
  have hr : 0 ≤ r2 := add_nonneg (mul_self_nonneg _) (mul_self_nonneg _)
  have h' : (2 * c.alpha - 1) * (c.beta * r2) < 1 := by
    have : r2 = ((k 0 - c.cu) / c.fu) ^ 2 + ((k 1 - c.cv) / c.fv) ^ 2 := by
      rw [hr2, hl]; simp [Pinhole.lift]; ring
    rw [this]; exact h
  have hlift : c.liftable r2 := by
    unfold EUCM.liftable
    by_cases h : c.alpha ≤ 1 / 2
    · exact Or.inl h
    · right
      push Not at h
      rw [le_div_iff₀ (mul_pos hb (by linarith))]
      linarith
  obtain ⟨d, hd0, hd2, hN, ht⟩ := c.rayK_facts ha ha' r2 (mul_nonneg hb.le hr) h'
  set kk := c.rayK r2 with hkk
  have hdist : c.dist ![m 0, m 1, kk] = d := by
    unfold EUCM.dist
    rw [← Real.sqrt_sq hd0, hd2]
    congr 1
    simp [hr2]; ring
  have hnorm : c.norm ![m 0, m 1, kk] = 1 := by
    unfold EUCM.norm; rw [hdist]; simpa using hN
  have hacc : ¬ (![m 0, m 1, kk] : V3) 2 ≤ -(c.fovParameter * c.dist ![m 0, m 1, kk]) := by
    rw [hdist]; simp
    unfold EUCM.fovParameter
    split_ifs with hh
    · have h1 : 0 < 1 - c.alpha := by linarith
      have h2 : 0 < (1 - c.alpha) * (c.alpha / (1 - c.alpha) * d + kk) := by
        rw [mul_add, show (1 - c.alpha) * (c.alpha / (1 - c.alpha) * d) = c.alpha * d by field_simp, hN]; norm_num
      have := (mul_pos_iff_of_pos_left h1).1 h2
      linarith
    · push Not at hh
      have h1 : 0 < c.alpha := by linarith
      have h2 : 0 < c.alpha * ((1 - c.alpha) / c.alpha * d + kk) := by
        rw [mul_add, show c.alpha * ((1 - c.alpha) / c.alpha * d) = (1 - c.alpha) * d by field_simp]; exact ht
      have := (mul_pos_iff_of_pos_left h1).1 h2
      linarith
  have hpl : c.plane ![m 0, m 1, kk] = m := by apply v2ext <;> simp [EUCM.plane, hnorm]
  have hlen : 0 < r2 + kk * kk := by
    by_contra hc
    have e1 : r2 = 0 := by nlinarith [mul_self_nonneg kk]
    have e2 : kk = 0 := by nlinarith [mul_self_nonneg kk]
    rw [e1, e2] at hd2
    have : d = 0 := by nlinarith
    rw [this, e2] at hN
    simp at hN
  have hsq := Real.sqrt_pos.2 hlen
  have hsq2 := Real.sq_sqrt hlen.le
  have hp : (![m 0 * (1 / √(r2 + kk * kk)), m 1 * (1 / √(r2 + kk * kk)), kk * (1 / √(r2 + kk * kk))] : V3)
      = (1 / √(r2 + kk * kk)) • ![m 0, m 1, kk] := by
    apply v3ext <;> simp <;> ring
  have hproj : c.project ((1 / √(r2 + kk * kk)) • ![m 0, m 1, kk]) = (some k, c.isValid k) := by
    rw [c.project_smul hb.le (by positivity)]
    simp only [EUCM.project]
    rw [if_neg hacc, hpl, hl, toPixel_lift c.toFrame hu hv]
  refine ⟨(1 / √(r2 + kk * kk)) • ![m 0, m 1, kk], ?_, ?_, ?_, ?_⟩
  · simp only [EUCM.backproject, ← hm, ← hr2]
    rw [if_neg (by simpa using hlift), ← hkk, hp]
  · generalize √(r2 + kk * kk) = t at *
    simp
    field_simp
    rw [hsq2, hr2]; ring
  · rw [hproj]
  · rw [hproj]; simp [Frame.isValid]

/-- A point behind the camera is accepted by a camera with α = 1/2, and the theorem applies to it. -/
example : ∃ k, ((EUCM.mk ⟨400, 410, 320, 240, 640, 480, noDistortion⟩ (1 / 2) 1).project ![3, 0, -4]).1 = some k := by
  have h : (EUCM.mk ⟨400, 410, 320, 240, 640, 480, noDistortion⟩ (1 / 2) 1).dist ![3, 0, -4] = 5 := by
    simp [EUCM.dist]; rw [show (3:ℝ) * 3 + 4 * 4 = 5 ^ 2 by norm_num, Real.sqrt_sq (by norm_num)]
  simp only [EUCM.project, EUCM.fovParameter, h]
  rw [if_neg (by simp; norm_num)]
  exact ⟨_, rfl⟩

/-! ### Jacobians -/

namespace EUCM

variable {n : ℕ} (c : EUCM n)

theorem cont_dist : Continuous c.dist := by unfold dist; fun_prop

theorem grad_dist (hb : 0 ≤ c.beta) (p : V3) (h : 0 < c.dist p) :
    GradAt c.dist (fun j => ![c.beta * p 0, c.beta * p 1, p 2] j / c.dist p) p := by
  have co (i : Fin 3) := gradAt_coord (x := p) i
  have h0 : c.beta * (p 0 * p 0 + p 1 * p 1) + p 2 * p 2 ≠ 0 := by
    have := c.dist_sq hb p
    intro h'
    rw [h'] at this
    have : 0 < c.dist p ^ 2 := by positivity
    linarith
  have := (((gradAt_const (x := p) c.beta).mul (((co 0).mul (co 0)).add ((co 1).mul (co 1)))).add
    ((co 2).mul (co 2))).sqrt h0
  have e' : √(c.beta * (p 0 * p 0 + p 1 * p 1) + p 2 * p 2) = c.dist p := rfl
  rw [e'] at this
  refine this.congr ?_
  funext j
  fin_cases j <;> simp <;> field_simp <;> ring

theorem grad_norm (hb : 0 ≤ c.beta) (p : V3) (h : 0 < c.dist p) :
    GradAt c.norm (fun j => c.alpha * (![c.beta * p 0, c.beta * p 1, p 2] j / c.dist p)
      + (1 - c.alpha) * (if j = 2 then 1 else 0)) p := by
  refine (((gradAt_const (x := p) c.alpha).mul (c.grad_dist hb p h)).add
    ((gradAt_const (1 - c.alpha)).mul (gradAt_coord 2))).congr ?_
  funext j
  simp

end EUCM

/-- **C55, extended unified, point.** For every accepted point the Jacobian returned with the projection is the
derivative of the keypoint. -/
theorem C55_eucm_point {n : ℕ} (c : EUCM n) (ha : 0 ≤ c.alpha) (ha' : c.alpha ≤ 1) (hb : 0 ≤ c.beta) (p : V3) (k : V2)
    (hk : (c.project p).1 = some k) : IsPartialJacobianAt (fun q => (c.project q).1) (c.projectJ p) p := by
  have h : ¬ p 2 ≤ -(c.fovParameter * c.dist p) := by
    intro h; simp [EUCM.project, h] at hk
  have hev : ∀ᶠ q in nhds p, -(c.fovParameter * c.dist q) < q 2 := by
    have c1 : Continuous fun q : V3 => -(c.fovParameter * c.dist q) := (continuous_const.mul c.cont_dist).neg
    have c2 : Continuous fun q : V3 => q 2 := continuous_apply 2
    exact c1.continuousAt.eventually_lt c2.continuousAt (not_le.1 h)
  obtain ⟨hd, hN, -⟩ := EUCM.accepted ha ha' hb (not_le.1 h)
  have co (i : Fin 3) := gradAt_coord (x := p) i
  have hr := (c.grad_norm hb p hd).inv hN.ne'
  refine ⟨fun q => c.toPixel (c.plane q), ?_, isJacobianAt_iff.2 fun i => ?_⟩
  · filter_upwards [hev] with q hq
    simp only [EUCM.project, not_le.2 hq, if_false]
  · simp only [EUCM.projectJ]
    rw [if_neg h]
    have hnorm : c.norm p = c.alpha * c.dist p + (1 - c.alpha) * p 2 := rfl
    fin_cases i
    · refine (((gradAt_const c.fu).mul ((co 0).mul hr)).add (gradAt_const c.cu)).congr ?_
      funext j
      generalize c.dist p = d at *
      generalize c.norm p = N at *
      fin_cases j <;> simp [-mul_eq_mul_left_iff] <;> field_simp <;> (try rw [hnorm]) <;> ring
    · refine (((gradAt_const c.fv).mul ((co 1).mul hr)).add (gradAt_const c.cv)).congr ?_
      funext j
      generalize c.dist p = d at *
      generalize c.norm p = N at *
      fin_cases j <;> simp [-mul_eq_mul_left_iff] <;> field_simp <;> (try rw [hnorm]) <;> ring

/-- The derivative of the keypoint with respect to the update vector (α, β, fu, fv, cu, cv). -/
theorem eucm_intrinsics {n : ℕ} (c : EUCM n) (ha : 0 ≤ c.alpha) (ha' : c.alpha ≤ 1) (hb : 0 ≤ c.beta) (p : V3) (k : V2)
    (hk : (c.project p).1 = some k) :
    IsPartialJacobianAt (fun v => ((c.update v).project p).1)
      (!![-c.fu * p 0 * (1 / c.norm p) ^ 2 * (c.dist p - p 2),
            -c.fu * p 0 * (1 / c.norm p) ^ 2 * (1 / 2 * c.alpha * (p 0 * p 0 + p 1 * p 1) * (1 / c.dist p)),
            p 0 * (1 / c.norm p), 0, 1, 0;
          -c.fv * p 1 * (1 / c.norm p) ^ 2 * (c.dist p - p 2),
            -c.fv * p 1 * (1 / c.norm p) ^ 2 * (1 / 2 * c.alpha * (p 0 * p 0 + p 1 * p 1) * (1 / c.dist p)),
            0, p 1 * (1 / c.norm p), 0, 1]) 0 := by
  have h : ¬ p 2 ≤ -(c.fovParameter * c.dist p) := by
    intro h; simp [EUCM.project, h] at hk
  obtain ⟨hd, hN, -⟩ := EUCM.accepted ha ha' hb (not_le.1 h)
  have hu0 : c.update 0 = c := by simp [EUCM.update]
  have hev : ∀ᶠ v : Fin 6 → ℝ in nhds 0, -((c.update v).fovParameter * (c.update v).dist p) < p 2 := by
    have c1 : Continuous fun v : Fin 6 → ℝ => -((c.update v).fovParameter * (c.update v).dist p) := by
      simp only [EUCM.fovParameter_eq, EUCM.update, EUCM.dist]
      refine (Continuous.mul (Continuous.div (by fun_prop) (by fun_prop) ?_) (by fun_prop)).neg
      intro v
      have h1 := le_max_right (c.alpha + v 0) (1 - (c.alpha + v 0))
      have h2 := le_max_left (c.alpha + v 0) (1 - (c.alpha + v 0))
      linarith
    exact c1.continuousAt.eventually_lt continuousAt_const (by rw [hu0]; exact not_le.1 h)
  have co (i : Fin 6) := gradAt_coord (x := (0 : Fin 6 → ℝ)) i
  have K (c : ℝ) := gradAt_const (x := (0 : Fin 6 → ℝ)) c
  have h0 : (c.beta + (0 : Fin 6 → ℝ) 1) * (p 0 * p 0 + p 1 * p 1) + p 2 * p 2 ≠ 0 := by
    have := c.dist_sq hb p
    have h2 : 0 < c.dist p ^ 2 := by positivity
    simp; rw [this] at h2; exact h2.ne'
  have gd := ((((K c.beta).add (co 1)).mul (K (p 0 * p 0 + p 1 * p 1))).add (K (p 2 * p 2))).sqrt h0
  have gn := (((K c.alpha).add (co 0)).mul gd).add (((K 1).sub ((K c.alpha).add (co 0))).mul (K (p 2)))
  have gr := gn.inv (by
    have : c.norm p = c.alpha * c.dist p + (1 - c.alpha) * p 2 := rfl
    simp only [Pi.zero_apply, add_zero]
    exact hN.ne')
  simp only [Pi.zero_apply, add_zero] at gr
  rw [show √(c.beta * (p 0 * p 0 + p 1 * p 1) + p 2 * p 2) = c.dist p from rfl,
    show c.alpha * c.dist p + (1 - c.alpha) * p 2 = c.norm p from rfl] at gr
  refine ⟨fun v => (c.update v).toPixel ((c.update v).plane p), ?_, isJacobianAt_iff.2 fun i => ?_⟩
  · filter_upwards [hev] with v hv
    simp only [EUCM.project, not_le.2 hv, if_false]
  · have hr0 : 1 / ((c.alpha + (0 : Fin 6 → ℝ) 0) * √((c.beta + (0 : Fin 6 → ℝ) 1) * (p 0 * p 0 + p 1 * p 1) + p 2 * p 2)
        + (1 - (c.alpha + (0 : Fin 6 → ℝ) 0)) * p 2) = 1 / c.norm p := by
      simp only [Pi.zero_apply, add_zero]; rfl
    fin_cases i
    · refine ((((K c.fu).add (co 2)).mul ((K (p 0)).mul gr)).add ((K c.cu).add (co 4))).congr ?_
      funext j
      rw [hr0]
      generalize c.dist p = d at *
      generalize c.norm p = N at *
      fin_cases j <;> simp <;> field_simp <;> ring
    · refine ((((K c.fv).add (co 3)).mul ((K (p 1)).mul gr)).add ((K c.cv).add (co 5))).congr ?_
      funext j
      rw [hr0]
      generalize c.dist p = d at *
      generalize c.norm p = N at *
      fin_cases j <;> simp <;> field_simp <;> ring

theorem EUCM.intrinsicsJ_eq {n : ℕ} (c : EUCM n) (p : V3) : c.intrinsicsJ p =
      !![-c.fu * p 0 * (1 / c.norm p * (1 / c.norm p)) * (c.dist p - p 2),
            -c.fu * p 0 * (1 / c.norm p * (1 / c.norm p)) * (1 / 2 * c.alpha * (p 0 * p 0 + p 1 * p 1) * (1 / c.dist p)),
            p 0 * (1 / c.norm p), 0, 1, 0;
          -c.fu * p 1 * (1 / c.norm p * (1 / c.norm p)) * (c.dist p - p 2),
            -c.fu * p 1 * (1 / c.norm p * (1 / c.norm p)) * (1 / 2 * c.alpha * (p 0 * p 0 + p 1 * p 1) * (1 / c.dist p)),
            0, p 1 * (1 / c.norm p), 0, 1] := rfl

/-- **C55, extended unified, intrinsics.** With equal focal lengths the intrinsics Jacobian is the derivative of the
keypoint. -/
theorem C55_eucm_intrinsics_partial {n : ℕ} (c : EUCM n) (hf : c.fu = c.fv) (ha : 0 ≤ c.alpha) (ha' : c.alpha ≤ 1)
    (hb : 0 ≤ c.beta) (p : V3) (k : V2) (hk : (c.project p).1 = some k) :
    IsPartialJacobianAt (fun v => ((c.update v).project p).1) (c.intrinsicsJ p) 0 := by
  convert eucm_intrinsics c ha ha' hb p k hk using 1
  rw [EUCM.intrinsicsJ_eq, hf, ← sq]

/-- **C55 fails for the intrinsics Jacobian of the extended unified projection when the focal lengths differ:** the second
row then has the wrong factor, wherever y is not zero and the point is off the optical axis. -/
theorem C55_eucm_intrinsics_counterexample {n : ℕ} (c : EUCM n) (hf : c.fu ≠ c.fv) (ha : 0 ≤ c.alpha) (ha' : c.alpha ≤ 1)
    (hb : 0 < c.beta) (p : V3) (hp : p 1 ≠ 0) (k : V2) (hk : (c.project p).1 = some k) :
    ¬ IsPartialJacobianAt (fun v => ((c.update v).project p).1) (c.intrinsicsJ p) 0 := by
  intro h
  have h1 := congrFun (congrFun (h.unique (eucm_intrinsics c ha ha' hb.le p k hk)) 1) 0
  have hacc : ¬ p 2 ≤ -(c.fovParameter * c.dist p) := by
    intro h; simp [EUCM.project, h] at hk
  obtain ⟨hd, hN, -⟩ := EUCM.accepted ha ha' hb.le (not_le.1 hacc)
  have hdz : c.dist p - p 2 ≠ 0 := by
    intro h0
    have h1 := c.dist_sq hb.le p
    have h2 : c.dist p = p 2 := by linarith
    rw [h2] at h1
    have h3 : c.beta * (p 0 * p 0 + p 1 * p 1) = 0 := by nlinarith
    have h4 : 0 < p 1 * p 1 := mul_self_pos.2 hp
    have h5 := mul_self_nonneg (p 0)
    have := mul_pos hb (by linarith : 0 < p 0 * p 0 + p 1 * p 1)
    linarith
  have h2 : c.intrinsicsJ p 1 0 = -c.fu * p 1 * (1 / c.norm p) ^ 2 * (c.dist p - p 2) := by
    rw [EUCM.intrinsicsJ_eq, ← sq]; simp
  rw [h2] at h1
  simp at h1
  rcases h1 with ((h1 | h1) | h1) | h1
  · exact hf h1
  · exact hp h1
  · exact hN.ne' h1
  · exact hdz h1

/-- **C56, extended unified.** A homogeneous point with non-zero scale and its negation project alike, with or without the
Jacobian being requested, and like the point divided by its scale. -/
theorem C56_eucm_partial {n : ℕ} (c : EUCM n) (hb : 0 ≤ c.beta) (ph : V4) (h : ph 3 ≠ 0) :
    c.projectH (-ph) = c.projectH ph ∧ c.projectHJ ph = c.projectH ph ∧ c.projectHJ (-ph) = c.projectH ph ∧
      c.projectH ph = c.project ((1 / ph 3) • head3 ph) := by
  unfold EUCM.projectH EUCM.projectHJ
  rw [head3_neg, neg_neg, Pi.neg_apply]
  rcases lt_or_gt_of_ne h with h | h
  · rw [if_neg (by linarith), if_pos h]
    refine ⟨rfl, rfl, rfl, ?_⟩
    rw [smul_head3 h, c.project_smul hb (by simpa using h)]
  · rw [if_pos (by linarith), if_neg (by linarith)]
    refine ⟨rfl, rfl, rfl, ?_⟩
    rw [c.project_smul hb (by positivity)]

theorem hasDerivAt_eucm_rayK {n : ℕ} (c : EUCM n) (r : ℝ) (h : 0 < 1 - (c.alpha - (1 - c.alpha)) * c.beta * r)
    (hB : 0 < c.alpha * √(1 - (c.alpha - (1 - c.alpha)) * c.beta * r) + (1 - c.alpha)) :
    HasDerivAt c.rayK (1 / 2 * c.alpha * c.beta * (-2 * c.alpha * (c.alpha * √(1 - (c.alpha - (1 - c.alpha)) * c.beta * r) + (1 - c.alpha))
      + (1 - c.alpha * c.alpha * c.beta * r) * (c.alpha - (1 - c.alpha)) / √(1 - (c.alpha - (1 - c.alpha)) * c.beta * r))
        * ((1 / (c.alpha * √(1 - (c.alpha - (1 - c.alpha)) * c.beta * r) + (1 - c.alpha)))
          * (1 / (c.alpha * √(1 - (c.alpha - (1 - c.alpha)) * c.beta * r) + (1 - c.alpha))))) r := by
  have hq := Real.sqrt_pos.2 h
  have d1 : HasDerivAt (fun r => 1 - (c.alpha - (1 - c.alpha)) * c.beta * r) (-((c.alpha - (1 - c.alpha)) * c.beta)) r := by
    simpa using ((hasDerivAt_id r).const_mul ((c.alpha - (1 - c.alpha)) * c.beta)).const_sub 1
  have d2 := ((d1.sqrt h.ne').const_mul c.alpha).add_const (1 - c.alpha)
  have d3 : HasDerivAt (fun r => 1 - c.alpha * c.alpha * c.beta * r) (-(c.alpha * c.alpha * c.beta)) r := by
    simpa using ((hasDerivAt_id r).const_mul (c.alpha * c.alpha * c.beta)).const_sub 1
  refine (d3.fun_div d2 hB.ne').congr_deriv ?_
  generalize √(1 - (c.alpha - (1 - c.alpha)) * c.beta * r) = q at *
  obtain ⟨B, hBe⟩ : ∃ B, B = c.alpha * q + (1 - c.alpha) := ⟨_, rfl⟩
  rw [← hBe] at hB ⊢
  field_simp
  ring

/-- **C55, extended unified, back-projection.** For a keypoint inside the circle the model can reach, the Jacobian
returned by keypointToEuclidean is the derivative of the ray. -/
theorem C55_eucm_ray {n : ℕ} (c : EUCM n) (ha : 0 ≤ c.alpha) (ha' : c.alpha ≤ 1)
    (hb : 0 < c.beta) (k : V2)
    (h : (2 * c.alpha - 1) * (c.beta * (((k 0 - c.cu) / c.fu) ^ 2 + ((k 1 - c.cv) / c.fv) ^ 2)) < 1) :
    IsPartialJacobianAt (fun q => (c.backproject q).1) (c.backprojectJ k) k := by
  have hlf : (fun q => c.lift q) = fun q => Pinhole.lift c.toFrame q := by funext q; exact EUCM.lift_eq c q
  have hlJ : IsJacobianAt (fun q => c.lift q) (!![1 / c.fu, 0; 0, 1 / c.fv] : M2) k := by
    rw [hlf]; exact jac_lift c.toFrame k
  have hlc : Continuous fun q => c.lift q := by rw [hlf]; exact cont_lift c.toFrame
  have hrow := isJacobianAt_iff.1 hlJ
  have hr2 (q : V2) : c.lift q 0 * c.lift q 0 + c.lift q 1 * c.lift q 1
      = ((q 0 - c.cu) / c.fu) ^ 2 + ((q 1 - c.cv) / c.fv) ^ 2 := by
    rw [EUCM.lift_eq]; simp [Pinhole.lift]; ring
  have hopen (q : V2) (hq : (2 * c.alpha - 1) * (c.beta * (((q 0 - c.cu) / c.fu) ^ 2 + ((q 1 - c.cv) / c.fv) ^ 2)) < 1) :
      c.liftable (c.lift q 0 * c.lift q 0 + c.lift q 1 * c.lift q 1) := by
    rw [hr2]
    unfold EUCM.liftable
    by_cases h : c.alpha ≤ 1 / 2
    · exact Or.inl h
    · right
      push Not at h
      rw [le_div_iff₀ (mul_pos hb (by linarith))]
      linarith
  have hev : ∀ᶠ q : V2 in nhds k,
      (2 * c.alpha - 1) * (c.beta * (((q 0 - c.cu) / c.fu) ^ 2 + ((q 1 - c.cv) / c.fv) ^ 2)) < 1 := by
    have c1 : Continuous fun q : V2 =>
      (2 * c.alpha - 1) * (c.beta * (((q 0 - c.cu) / c.fu) ^ 2 + ((q 1 - c.cv) / c.fv) ^ 2)) := by fun_prop
    exact c1.continuousAt.eventually_lt continuousAt_const h
  have hR0 : 0 ≤ c.lift k 0 * c.lift k 0 + c.lift k 1 * c.lift k 1 :=
    add_nonneg (mul_self_nonneg _) (mul_self_nonneg _)
  have hR1 : (2 * c.alpha - 1) * (c.beta * (c.lift k 0 * c.lift k 0 + c.lift k 1 * c.lift k 1)) < 1 := by
    rw [hr2]; exact h
  obtain ⟨d, hd0, hd2, hN, ht⟩ := c.rayK_facts ha ha' _ (mul_nonneg hb.le hR0) hR1
  have gR := ((hrow 0).mul (hrow 0)).add ((hrow 1).mul (hrow 1))
  have hq : 0 < 1 - (c.alpha - (1 - c.alpha)) * c.beta * (c.lift k 0 * c.lift k 0 + c.lift k 1 * c.lift k 1) := by
    nlinarith
  have hq1 := Real.sqrt_pos.2 hq
  have hB : 0 < c.alpha * √(1 - (c.alpha - (1 - c.alpha)) * c.beta * (c.lift k 0 * c.lift k 0 + c.lift k 1 * c.lift k 1))
      + (1 - c.alpha) := by
    rcases ha.lt_or_eq with h | h
    · have := mul_pos h hq1
      linarith
    · rw [← h]; norm_num
  have gK := GradAt.comp (φ := c.rayK) (hasDerivAt_eucm_rayK c _ hq hB) gR
  have hlen : 0 < c.lift k 0 * c.lift k 0 + c.lift k 1 * c.lift k 1
      + c.rayK (c.lift k 0 * c.lift k 0 + c.lift k 1 * c.lift k 1)
        * c.rayK (c.lift k 0 * c.lift k 0 + c.lift k 1 * c.lift k 1) := by
    generalize c.rayK (c.lift k 0 * c.lift k 0 + c.lift k 1 * c.lift k 1) = kk at *
    generalize c.lift k 0 * c.lift k 0 + c.lift k 1 * c.lift k 1 = r2 at *
    by_contra hc
    have e1 : r2 = 0 := by nlinarith [mul_self_nonneg kk]
    have e2 : kk = 0 := by nlinarith [mul_self_nonneg kk]
    rw [e1, e2] at hd2
    have : d = 0 := by nlinarith
    rw [this, e2] at hN
    simp at hN
  have gI := ((gR.add (gK.mul gK)).sqrt hlen.ne').inv (Real.sqrt_pos.2 hlen).ne'
  refine ⟨fun q => ![c.lift q 0 * (1 / √(c.lift q 0 * c.lift q 0 + c.lift q 1 * c.lift q 1
      + c.rayK (c.lift q 0 * c.lift q 0 + c.lift q 1 * c.lift q 1)
        * c.rayK (c.lift q 0 * c.lift q 0 + c.lift q 1 * c.lift q 1))),
    c.lift q 1 * (1 / √(c.lift q 0 * c.lift q 0 + c.lift q 1 * c.lift q 1
      + c.rayK (c.lift q 0 * c.lift q 0 + c.lift q 1 * c.lift q 1)
        * c.rayK (c.lift q 0 * c.lift q 0 + c.lift q 1 * c.lift q 1))),
    c.rayK (c.lift q 0 * c.lift q 0 + c.lift q 1 * c.lift q 1) * (1 / √(c.lift q 0 * c.lift q 0 + c.lift q 1 * c.lift q 1
      + c.rayK (c.lift q 0 * c.lift q 0 + c.lift q 1 * c.lift q 1)
        * c.rayK (c.lift q 0 * c.lift q 0 + c.lift q 1 * c.lift q 1)))], ?_, isJacobianAt_iff.2 fun i => ?_⟩
  · filter_upwards [hev] with q hq
    simp only [EUCM.backproject]
    rw [if_neg (by simpa using hopen q hq)]
  · have hK : c.rayK (c.lift k 0 * c.lift k 0 + c.lift k 1 * c.lift k 1)
        = (1 - c.alpha * c.alpha * c.beta * (c.lift k 0 * c.lift k 0 + c.lift k 1 * c.lift k 1))
          * (1 / (c.alpha * √(1 - (c.alpha - (1 - c.alpha)) * c.beta
            * (c.lift k 0 * c.lift k 0 + c.lift k 1 * c.lift k 1)) + (1 - c.alpha))) := by
      rw [← div_eq_mul_one_div]; rfl
    simp only [EUCM.backprojectJ]
    rw [← hK]
    fin_cases i
    · refine ((hrow 0).mul gI).congr ?_
      clear * -
      generalize √(1 - _) = q
      generalize c.rayK _ = kk
      funext j
      generalize 1 / (c.alpha * q + (1 - c.alpha)) = B
      generalize c.lift k 0 = m0
      generalize c.lift k 1 = m1
      generalize √(m0 * m0 + m1 * m1 + kk * kk) = t
      fin_cases j <;> simp <;> ring
    · refine ((hrow 1).mul gI).congr ?_
      clear * -
      generalize √(1 - _) = q
      generalize c.rayK _ = kk
      funext j
      generalize 1 / (c.alpha * q + (1 - c.alpha)) = B
      generalize c.lift k 0 = m0
      generalize c.lift k 1 = m1
      generalize √(m0 * m0 + m1 * m1 + kk * kk) = t
      fin_cases j <;> simp <;> ring
    · refine (gK.mul gI).congr ?_
      clear * -
      generalize √(1 - _) = q
      generalize c.rayK _ = kk
      funext j
      generalize 1 / (c.alpha * q + (1 - c.alpha)) = B
      generalize c.lift k 0 = m0
      generalize c.lift k 1 = m1
      generalize √(m0 * m0 + m1 * m1 + kk * kk) = t
      fin_cases j <;> simp <;> ring

end Kalibr.Camera
