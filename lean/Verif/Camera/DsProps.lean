import Verif.Camera.EucmProps

/-!
The double sphere projection: back-projection (C87), Jacobians (C55) and homogeneous points (C56).
-/

namespace Kalibr.Camera

open Real

set_option linter.unusedSimpArgs false

namespace DS

variable {n : ℕ} (c : DS n)

theorem d1_eq (p : V3) : d1 p = Omni.norm3 p := by
  unfold d1 Omni.norm3; congr 1; ring

theorem d1_nonneg (p : V3) : 0 ≤ d1 p := Real.sqrt_nonneg _

theorem d1_sq (p : V3) : d1 p ^ 2 = p 0 ^ 2 + p 1 ^ 2 + p 2 ^ 2 := by rw [d1_eq]; exact norm3_sq p

theorem abs_z_le_d1 (p : V3) : |p 2| ≤ d1 p := by rw [d1_eq]; exact abs_z_le_norm3 p

theorem d2_nonneg (p : V3) : 0 ≤ c.d2 p := Real.sqrt_nonneg _

theorem d2_sq (p : V3) : c.d2 p ^ 2 = p 0 ^ 2 + p 1 ^ 2 + c.kk p ^ 2 := by
  unfold d2
  rw [Real.sq_sqrt (add_nonneg (add_nonneg (mul_self_nonneg _) (mul_self_nonneg _)) (mul_self_nonneg _))]
  ring

theorem d2_sq' (p : V3) : c.d2 p ^ 2 = d1 p * (d1 p + 2 * c.xi * p 2 + c.xi ^ 2 * d1 p) := by
  have h1 := d1_sq p
  have h2 := c.d2_sq p
  have h3 : c.kk p = c.xi * d1 p + p 2 := rfl
  rw [h2, h3]; linear_combination -h1

theorem lift_eq (k : V2) : c.lift k = Pinhole.lift c.toFrame k := by
  apply v2ext <;> simp [lift, Pinhole.lift] <;> ring

/-- The extended unified camera that acts as the second sphere and the image plane. -/
def second : EUCM n := ⟨c.toFrame, c.alpha, 1⟩

theorem mz_eq (r2 : ℝ) : c.mz r2 = c.second.rayK r2 := by
  unfold mz EUCM.rayK second
  simp only [mul_one]
  rw [show c.alpha - (1 - c.alpha) = 2 * c.alpha - 1 by ring, add_sub_assoc]

theorem temp_eq : c.temp = c.second.fovParameter := rfl

theorem d2_eq (p : V3) : c.d2 p = c.second.dist ![p 0, p 1, c.kk p] := by
  simp [d2, EUCM.dist, second]

theorem norm_eq (p : V3) : c.norm p = c.second.norm ![p 0, p 1, c.kk p] := by
  simp only [norm, EUCM.norm, d2_eq]; rfl

theorem plane_eq (p : V3) : c.plane p = c.second.plane ![p 0, p 1, c.kk p] := by
  simp only [plane, EUCM.plane, norm_eq]; rfl

theorem temp_mem (ha : 0 ≤ c.alpha) (ha' : c.alpha ≤ 1) : 0 ≤ c.temp ∧ c.temp ≤ 1 := by
  unfold temp
  split_ifs with h
  · have : 0 < 1 - c.alpha := by linarith
    exact ⟨by positivity, by rw [div_le_one this]; linarith⟩
  · push Not at h
    have : 0 < c.alpha := by linarith
    exact ⟨div_nonneg (by linarith) this.le, by rw [div_le_one this]; linarith⟩

/-- The core of the acceptance test, for a point at distance one: `ζ` is minus its third coordinate. -/
theorem accept_core (w x S ζ : ℝ) (hw : 0 ≤ w) (hw1 : w ≤ 1) (hx : -1 < x) (hxw : -(2 * w) ≤ x) (hS : 0 < S)
    (hS2 : S ^ 2 = 2 * w * x + x * x + 1) (h : ζ * S < w + x) (hζ : x ≤ ζ) :
    (ζ - x) ^ 2 < w ^ 2 * (1 - 2 * x * ζ + x ^ 2) := by
  have hA1 : w + x - x * S ≤ w := by
    rcases le_or_gt 0 x with h0 | h0
    · have : 1 ≤ S := by nlinarith
      nlinarith
    · have : S ≤ 1 := by nlinarith
      nlinarith
  have hA2 : 0 < w + x - x * S := by nlinarith
  have hA : (w + x - x * S) ^ 2 ≤ w ^ 2 := sq_le_sq' (by linarith) hA1
  obtain ⟨v, hv⟩ : ∃ v, v * S = w + x := ⟨(w + x) / S, by field_simp⟩
  have hvz : ζ < v := by
    rw [← hv] at h; exact lt_of_mul_lt_mul_right h hS.le
  have hhv : (v - x) ^ 2 ≤ w ^ 2 * (1 - 2 * x * v + x ^ 2) := by
    have e : ((v - x) ^ 2 - w ^ 2 * (1 - 2 * x * v + x ^ 2)) * S ^ 2 = ((w + x - x * S) ^ 2 - w ^ 2) * (1 - w ^ 2) := by
      have e1 : ((v - x) ^ 2 - w ^ 2 * (1 - 2 * x * v + x ^ 2)) * S ^ 2
          = (v * S - x * S) ^ 2 - w ^ 2 * (S ^ 2 - 2 * x * (v * S) * S + x ^ 2 * S ^ 2) := by ring
      rw [e1, hv]
      linear_combination (-w ^ 2) * hS2
    have e2 : ((v - x) ^ 2 - w ^ 2 * (1 - 2 * x * v + x ^ 2)) * S ^ 2 ≤ 0 := by
      rw [e]
      exact mul_nonpos_of_nonpos_of_nonneg (by linarith) (by nlinarith)
    have := nonpos_of_mul_nonpos_left e2 (by positivity)
    linarith
  rcases le_or_gt 0 x with h0 | h0
  · have e : (v - x) ^ 2 - w ^ 2 * (1 - 2 * x * v + x ^ 2) - ((ζ - x) ^ 2 - w ^ 2 * (1 - 2 * x * ζ + x ^ 2))
        = (v - ζ) * (v + ζ - 2 * x + 2 * x * w ^ 2) := by ring
    have : 0 < (v - ζ) * (v + ζ - 2 * x + 2 * x * w ^ 2) := by
      have : 0 ≤ 2 * x * w ^ 2 := by positivity
      exact mul_pos (by linarith) (by linarith)
    linarith
  · have hw0 : 0 < w := by linarith
    have hx2 : x ^ 2 < 1 := by nlinarith
    have hhx : 0 < w ^ 2 * (1 - x ^ 2) := mul_pos (by positivity) (by linarith)
    have e : (v - x) * ((ζ - x) ^ 2 - w ^ 2 * (1 - 2 * x * ζ + x ^ 2))
        = (v - ζ) * (-(w ^ 2 * (1 - x ^ 2))) + (ζ - x) * ((v - x) ^ 2 - w ^ 2 * (1 - 2 * x * v + x ^ 2))
          - (v - x) * (v - ζ) * (ζ - x) := by ring
    have h1 : 0 < (v - ζ) * (w ^ 2 * (1 - x ^ 2)) := mul_pos (by linarith) hhx
    have h2 : 0 ≤ (ζ - x) * (w ^ 2 * (1 - 2 * x * v + x ^ 2) - (v - x) ^ 2) := mul_nonneg (by linarith) (by linarith)
    have h3 : 0 ≤ (v - x) * (v - ζ) * (ζ - x) := by
      have := mul_nonneg (by linarith : 0 ≤ v - x) (by linarith : 0 ≤ v - ζ)
      exact mul_nonneg this (by linarith)
    have h4 : (v - x) * ((ζ - x) ^ 2 - w ^ 2 * (1 - 2 * x * ζ + x ^ 2)) < 0 := by rw [e]; linarith
    by_contra hc
    push Not at hc
    have := mul_nonneg (by linarith : 0 ≤ v - x) (by linarith : 0 ≤ (ζ - x) ^ 2 - w ^ 2 * (1 - 2 * x * ζ + x ^ 2))
    linarith

theorem root_pos (ha : 0 ≤ c.alpha) (ha' : c.alpha ≤ 1) (hx : -1 < c.xi) :
    0 < 2 * c.temp * c.xi + c.xi * c.xi + 1 := by
  obtain ⟨h0, h1⟩ := c.temp_mem ha ha'
  rcases le_or_gt 0 c.xi with h | h
  · positivity
  · nlinarith

/-- What acceptance of a point by the projection amounts to, if ξ is not too negative. -/
theorem accepted {c : DS n} (ha : 0 ≤ c.alpha) (ha' : c.alpha ≤ 1) (hx : -1 < c.xi) (hxw : -(2 * c.temp) ≤ c.xi)
    {p : V3} (h : -(c.fovParameter * d1 p) < p 2) :
    0 < d1 p ∧ 0 < c.d2 p ∧ 0 < c.norm p ∧ 0 < (1 - c.alpha) * c.d2 p + c.alpha * c.kk p := by
  obtain ⟨hw0, hw1⟩ := c.temp_mem ha ha'
  have hS2 := Real.sq_sqrt (c.root_pos ha ha' hx).le
  have hS := Real.sqrt_pos.2 (c.root_pos ha ha' hx)
  have hd := d1_nonneg p
  have hz := abs_le.1 (abs_z_le_d1 p)
  have hd' : 0 < d1 p := by
    rcases hd.lt_or_eq with h' | h'
    · exact h'
    · rw [← h'] at h hz; simp at h; linarith [hz.2]
  have hd2 := c.d2_sq' p
  have hd2n := c.d2_nonneg p
  have hkk : c.kk p = c.xi * d1 p + p 2 := rfl
  have key : -(c.temp * c.d2 p) < c.kk p := by
    rcases lt_or_ge 0 (c.kk p) with hk | hk
    · have := mul_nonneg hw0 hd2n
      linarith
    · have hS' : (-(p 2 / d1 p)) * √(2 * c.temp * c.xi + c.xi * c.xi + 1) < c.temp + c.xi := by
        have : -(p 2 / d1 p) < c.fovParameter := by
          rw [neg_lt, lt_div_iff₀ hd']; linarith
        unfold fovParameter at this
        rwa [lt_div_iff₀ hS] at this
      have hζ : c.xi ≤ -(p 2 / d1 p) := by
        rw [← neg_div, le_div_iff₀ hd']; linarith
      have := accept_core c.temp c.xi _ _ hw0 hw1 hx hxw hS hS2 hS' hζ
      have h2 : c.kk p ^ 2 < (c.temp * c.d2 p) ^ 2 := by
        have e1 : c.kk p ^ 2 = d1 p ^ 2 * (-(p 2 / d1 p) - c.xi) ^ 2 := by rw [hkk]; field_simp; ring
        have e2 : (c.temp * c.d2 p) ^ 2 = d1 p ^ 2 * (c.temp ^ 2 * (1 - 2 * c.xi * -(p 2 / d1 p) + c.xi ^ 2)) := by
          rw [mul_pow, hd2]; field_simp; ring
        rw [e1, e2]
        exact mul_lt_mul_of_pos_left this (by positivity)
      have := abs_lt_of_sq_lt_sq h2 (mul_nonneg hw0 hd2n)
      linarith [(abs_lt.1 this).1]
  have := EUCM.accepted (c := c.second) (p := ![p 0, p 1, c.kk p]) ha ha' (by simp [second])
    (by rw [← temp_eq, ← d2_eq]; simpa using key)
  rw [← d2_eq, ← norm_eq] at this
  exact ⟨hd', this.1, this.2.1, by simpa [second] using this.2.2⟩

/-- The undone projection: for a point on the image plane that came from `p`. -/
theorem ray_of_plane (ha : 0 ≤ c.alpha) (ha' : c.alpha ≤ 1) (hx : -1 < c.xi) (hx1 : c.xi ≤ 1) (p : V3)
    (hd1 : 0 < d1 p) (hd2 : 0 < c.d2 p)
    (hN : 0 < c.norm p) (ht : 0 < (1 - c.alpha) * c.d2 p + c.alpha * c.kk p) :
    c.liftable (c.plane p 0 * c.plane p 0 + c.plane p 1 * c.plane p 1) ∧
      c.mz (c.plane p 0 * c.plane p 0 + c.plane p 1 * c.plane p 1) = c.kk p / c.norm p ∧
      c.rayK (c.plane p 0 * c.plane p 0 + c.plane p 1 * c.plane p 1) = c.norm p / d1 p := by
  have h := EUCM.ray_of_plane c.second ha ha' (by simp [second]) ![p 0, p 1, c.kk p]
    (by rw [← norm_eq]; exact hN) (by rw [← d2_eq]; simpa [second] using ht)
  rw [← norm_eq, ← plane_eq, ← mz_eq] at h
  have hmz := h.2
  simp only [Matrix.cons_val] at hmz
  refine ⟨?_, hmz, ?_⟩
  · have := h.1
    simpa [EUCM.liftable, liftable, second] using this
  · have hr2 : c.plane p 0 * c.plane p 0 + c.plane p 1 * c.plane p 1 = (d1 p ^ 2 - p 2 ^ 2) / c.norm p ^ 2 := by
      rw [d1_sq]; simp [plane]; field_simp
    unfold rayK
    simp only
    rw [hmz, hr2]
    have hkk : c.kk p = c.xi * d1 p + p 2 := rfl
    have hz := abs_le.1 (abs_z_le_d1 p)
    have hz' : 0 ≤ d1 p + c.xi * p 2 := by nlinarith
    have hroot : c.kk p / c.norm p * (c.kk p / c.norm p) + (1 - c.xi * c.xi) * ((d1 p ^ 2 - p 2 ^ 2) / c.norm p ^ 2)
        = ((d1 p + c.xi * p 2) / c.norm p) ^ 2 := by
      rw [hkk]; field_simp; ring
    have hden : c.kk p / c.norm p * (c.kk p / c.norm p) + (d1 p ^ 2 - p 2 ^ 2) / c.norm p ^ 2
        = c.d2 p ^ 2 / c.norm p ^ 2 := by
      rw [c.d2_sq' p, hkk]; field_simp; ring
    rw [hroot, Real.sqrt_sq (div_nonneg hz' hN.le), hden]
    have hd2' := c.d2_sq' p
    have : 0 < d1 p + 2 * c.xi * p 2 + c.xi ^ 2 * d1 p := by
      have : 0 < d1 p * (d1 p + 2 * c.xi * p 2 + c.xi ^ 2 * d1 p) := by rw [← hd2']; positivity
      exact (mul_pos_iff_of_pos_left hd1).1 this
    rw [hd2', hkk]
    obtain ⟨e, he⟩ : ∃ e, e = d1 p + 2 * c.xi * p 2 + c.xi ^ 2 * d1 p := ⟨_, rfl⟩
    rw [← he] at this ⊢
    field_simp
    rw [he]
    ring

theorem d1_smul {a : ℝ} (ha : 0 < a) (p : V3) : d1 (a • p) = a * d1 p := by
  rw [d1_eq, d1_eq, norm3_smul ha]

theorem plane_smul {a : ℝ} (ha : 0 < a) (p : V3) : c.plane (a • p) = c.plane p := by
  have hk : c.kk (a • p) = a * c.kk p := by unfold kk; rw [d1_smul ha]; simp; ring
  have hv : (![(a • p) 0, (a • p) 1, a * c.kk p] : V3) = a • ![p 0, p 1, c.kk p] := by
    apply v3ext <;> simp
  rw [plane_eq, plane_eq, hk, hv, c.second.plane_smul (by simp [second]) ha]

theorem project_smul {a : ℝ} (ha : 0 < a) (p : V3) : c.project (a • p) = c.project p := by
  have hif : (a • p) 2 ≤ -(c.fovParameter * d1 (a • p)) ↔ p 2 ≤ -(c.fovParameter * d1 p) := by
    rw [d1_smul ha]
    simp
    rw [show -(c.fovParameter * (a * d1 p)) = a * -(c.fovParameter * d1 p) by ring]
    exact mul_le_mul_iff_right₀ ha
  simp only [project, c.plane_smul ha, hif]

/-- The facts about the second sphere seen from a place on the image plane, and about the ray. -/
theorem rayK_facts (ha : 0 ≤ c.alpha) (ha' : c.alpha ≤ 1) (hx : -1 < c.xi) (hx1 : c.xi < 1) (r2 : ℝ) (hr : 0 ≤ r2)
    (h : (2 * c.alpha - 1) * r2 < 1) :
    0 < c.mz r2 ^ 2 + r2 ∧ 0 < c.mz r2 * c.mz r2 + (1 - c.xi * c.xi) * r2 ∧ 0 < c.rayK r2 ∧
      c.rayK r2 ^ 2 * r2 + (c.rayK r2 * c.mz r2 - c.xi) ^ 2 = 1 ∧
      c.alpha * √(c.mz r2 ^ 2 + r2) + (1 - c.alpha) * c.mz r2 = 1 := by
  obtain ⟨d, hd0, hd2, hN, ht⟩ := c.second.rayK_facts ha ha' r2 (by simpa [second] using hr) (by simpa [second] using h)
  rw [← mz_eq] at hd2 hN ht
  simp only [second, one_mul] at hd2 hN ht
  have hk : c.rayK r2 = (c.mz r2 * c.xi + √(c.mz r2 * c.mz r2 + (1 - c.xi * c.xi) * r2)) / (c.mz r2 * c.mz r2 + r2) := rfl
  generalize c.mz r2 = m at *
  generalize c.rayK r2 = k at *
  have hpos : 0 < m ^ 2 + r2 := by
    by_contra hc
    have e1 : r2 = 0 := by nlinarith [sq_nonneg m]
    have e2 : m = 0 := by nlinarith [sq_nonneg m]
    rw [e1, e2] at hd2
    have : d = 0 := by nlinarith
    rw [this, e2] at hN
    simp at hN
  have hx2 : 0 < 1 - c.xi * c.xi := by nlinarith
  have hrad : 0 < m * m + (1 - c.xi * c.xi) * r2 := by
    have := mul_pos hx2 hpos
    have := mul_nonneg (mul_self_nonneg c.xi) (sq_nonneg m)
    nlinarith
  have hq := Real.sqrt_pos.2 hrad
  have hq2 := Real.sq_sqrt hrad.le
  have hdr : √(m ^ 2 + r2) = d := by rw [← Real.sqrt_sq hd0, hd2, add_comm]
  refine ⟨hpos, hrad, ?_, ?_, by rw [hdr]; exact hN⟩
  · rw [hk]
    refine div_pos ?_ (by nlinarith)
    have h1 : (m * c.xi) ^ 2 < √(m * m + (1 - c.xi * c.xi) * r2) ^ 2 := by
      rw [hq2]
      have := mul_pos hx2 hpos
      nlinarith
    have := abs_lt_of_sq_lt_sq h1 hq.le
    linarith [(abs_lt.1 this).1]
  · rw [hk]
    generalize √(m * m + (1 - c.xi * c.xi) * r2) = q at *
    have hpos' : 0 < m * m + r2 := by nlinarith
    obtain ⟨e, he⟩ : ∃ e, e = m * m + r2 := ⟨_, rfl⟩
    rw [← he] at hpos' ⊢
    field_simp
    have : r2 = e - m * m := by linarith
    rw [this] at hq2 ⊢
    clear * - hq2
    grind

end DS

/-- **C87, point to keypoint to ray.** For every α in [0, 1] and every ξ in (-1, 1] with ξ ≥ -2w, where w = α/(1-α) or
(1-α)/α, whichever is at most one, a point accepted by the projection is back-projected to itself divided by its
length. -/
theorem C87_ray_partial {n : ℕ} (c : DS n) (hu : c.fu ≠ 0) (hv : c.fv ≠ 0) (ha : 0 ≤ c.alpha) (ha' : c.alpha ≤ 1)
    (hx : -1 < c.xi) (hx1 : c.xi ≤ 1)
    (hxw : -(2 * (if c.alpha ≤ 1 / 2 then c.alpha / (1 - c.alpha) else (1 - c.alpha) / c.alpha)) ≤ c.xi)
    (p : V3) (k : V2) (hk : (c.project p).1 = some k) :
    c.backproject k = (some ((1 / √(p 0 ^ 2 + p 1 ^ 2 + p 2 ^ 2)) • p), True) ∧
      0 < p 0 ^ 2 + p 1 ^ 2 + p 2 ^ 2 := by
  unfold DS.project at hk
  by_cases h : p 2 ≤ -(c.fovParameter * DS.d1 p)
  · simp [h] at hk
  · simp only [h, if_false] at hk
    push Not at h
    obtain ⟨hd1, hd2, hN, ht⟩ := DS.accepted ha ha' hx hxw h
    obtain ⟨h1, h2, h3⟩ := DS.ray_of_plane c ha ha' hx hx1 p hd1 hd2 hN ht
    have hk' := Option.some.inj hk
    have hlk : c.lift k = c.plane p := by rw [← hk', DS.lift_eq, lift_toPixel c.toFrame hu hv]
    have hn : √(p 0 ^ 2 + p 1 ^ 2 + p 2 ^ 2) = DS.d1 p := by rw [DS.d1_eq]; rfl
    refine ⟨?_, by rw [← DS.d1_sq]; positivity⟩
    simp only [DS.backproject]
    rw [if_neg (by rw [hlk]; simpa using h1), hlk, h2, h3, hn]
    congr 2
    have hkk : c.kk p = c.xi * DS.d1 p + p 2 := rfl
    apply v3ext
    · simp [DS.plane]; field_simp
    · simp [DS.plane]; field_simp
    · simp [hkk]; field_simp; ring

/-- **C87, keypoint to ray to keypoint.** For ξ in (-1, 1), a keypoint whose place on the image plane lies inside the
circle that the model can reach is back-projected to a ray of length one; if the projection accepts that ray, it projects
it to the keypoint. -/
theorem C87_keypoint_partial {n : ℕ} (c : DS n) (hu : c.fu ≠ 0) (hv : c.fv ≠ 0) (ha : 0 ≤ c.alpha) (ha' : c.alpha ≤ 1)
    (hx : -1 < c.xi) (hx1 : c.xi < 1) (k : V2)
    (h : (2 * c.alpha - 1) * (((k 0 - c.cu) / c.fu) ^ 2 + ((k 1 - c.cv) / c.fv) ^ 2) < 1) :
    ∃ p, c.backproject k = (some p, True) ∧ p 0 ^ 2 + p 1 ^ 2 + p 2 ^ 2 = 1 ∧
      ∀ k', (c.project p).1 = some k' → k' = k ∧
        ((c.project p).2 ↔ 0 ≤ k 0 ∧ k 0 < c.ru ∧ 0 ≤ k 1 ∧ k 1 < c.rv) := by
  have hl := DS.lift_eq c k
  set m := c.lift k with hm
  set r2 := m 0 * m 0 + m 1 * m 1 with hr2
  have hr : 0 ≤ r2 := add_nonneg (mul_self_nonneg _) (mul_self_nonneg _)
  have h' : (2 * c.alpha - 1) * r2 < 1 := by
    have : r2 = ((k 0 - c.cu) / c.fu) ^ 2 + ((k 1 - c.cv) / c.fv) ^ 2 := by
      rw [hr2, hl]; simp [Pinhole.lift]; ring
    rw [this]; exact h
  have hlift : c.liftable r2 := by
    unfold DS.liftable
    by_cases h : c.alpha ≤ 1 / 2
    · exact Or.inl h
    · right
      push Not at h
      rw [le_div_iff₀ (by linarith)]
      linarith
  obtain ⟨h1, h2, h3, h4, h5⟩ := c.rayK_facts ha ha' hx hx1 r2 hr h'
  have hbp : c.backproject k = (some ![c.rayK r2 * m 0, c.rayK r2 * m 1, c.rayK r2 * c.mz r2 - c.xi], True) := by
    simp only [DS.backproject, ← hm, ← hr2]
    rw [if_neg (by simpa using hlift)]
  generalize c.rayK r2 = l at *
  generalize c.mz r2 = z at *
  have hlen : (l * m 0) ^ 2 + (l * m 1) ^ 2 + (l * z - c.xi) ^ 2 = 1 := by
    rw [← h4, hr2]; ring
  refine ⟨_, hbp, by simpa using hlen, fun k' hk' => ?_⟩
  have hd1 : DS.d1 ![l * m 0, l * m 1, l * z - c.xi] = 1 := by
    rw [DS.d1_eq]
    unfold Omni.norm3
    simp only [Matrix.cons_val]
    rw [hlen, Real.sqrt_one]
  have hkk : c.kk ![l * m 0, l * m 1, l * z - c.xi] = l * z := by
    unfold DS.kk; rw [hd1]; simp
  have hd2 : c.d2 ![l * m 0, l * m 1, l * z - c.xi] = l * √(z ^ 2 + r2) := by
    unfold DS.d2
    rw [hkk]
    simp only [Matrix.cons_val]
    rw [show l * m 0 * (l * m 0) + l * m 1 * (l * m 1) + l * z * (l * z) = l ^ 2 * (z ^ 2 + r2) by rw [hr2]; ring,
      Real.sqrt_mul (by positivity), Real.sqrt_sq h3.le]
  have hnorm : c.norm ![l * m 0, l * m 1, l * z - c.xi] = l := by
    unfold DS.norm
    rw [hd2, hkk]; linear_combination l * h5
  have hpl : c.plane ![l * m 0, l * m 1, l * z - c.xi] = m := by
    unfold DS.plane
    rw [hnorm]
    apply v2ext <;> simp <;> field_simp
  unfold DS.project at hk' ⊢
  split_ifs at hk' ⊢ with hacc
  · have htp : c.toPixel m = k := by rw [hl, toPixel_lift c.toFrame hu hv]
    simp only [hpl, htp] at hk' ⊢
    exact ⟨(Option.some.inj hk').symm, by simp [Frame.isValid]⟩

/-- **C87 fails for ξ < -2w:** with ξ = -1/2 and α = 0 the point (15, 0, 8) is projected, with the flag set, to a keypoint
on the other side of the principal point, whose ray is no multiple of the point. -/
theorem C87_ray_counterexample : ∃ (c : DS 0) (p : V3) (k : V2), 0 < c.fu ∧ 0 < c.fv ∧ 0 ≤ c.alpha ∧ c.alpha ≤ 1 ∧
    -1 < c.xi ∧ c.xi ≤ 1 ∧ (c.project p).1 = some k ∧ (c.project p).2 ∧
    ∃ q, c.backproject k = (some q, True) ∧ 0 < p 0 ∧ q 0 < 0 ∧ 0 < p 2 ∧ 0 < q 2 := by
  have h17 : DS.d1 ![15, 0, 8] = 17 := by
    simp [DS.d1]; rw [show (15:ℝ) * 15 + 8 * 8 = 17 ^ 2 by norm_num, Real.sqrt_sq (by norm_num)]
  have hs : (17 : ℝ) / 16 < √(5 / 4) := Real.lt_sqrt_of_sq_lt (by norm_num)
  have hfov : (DS.mk (n := 0) ⟨1, 1, 320, 240, 640, 480, noDistortion⟩ (-1 / 2) 0).fovParameter = -(1 / 2) / √(5 / 4) := by
    simp [DS.fovParameter, DS.temp]
    norm_num
  have hacc : ¬ (8 : ℝ) ≤ -(-(1 / 2) / √(5 / 4) * 17) := by
    rw [not_le]
    have : (0:ℝ) < √(5 / 4) := by positivity
    rw [show -(-(1 / 2) / √(5 / 4) * 17) = (17 / 2) / √(5 / 4) by ring, div_lt_iff₀ this]
    linarith
  have hpl : (DS.mk (n := 0) ⟨1, 1, 320, 240, 640, 480, noDistortion⟩ (-1 / 2) 0).plane ![15, 0, 8] = ![-30, 0] := by
    simp [DS.plane, DS.norm, DS.kk, h17]; norm_num
  have h26 : √(676 : ℝ) = 26 := by rw [show (676:ℝ) = 26 ^ 2 by norm_num, Real.sqrt_sq (by norm_num)]
  refine ⟨⟨⟨1, 1, 320, 240, 640, 480, noDistortion⟩, -1 / 2, 0⟩, ![15, 0, 8], ![290, 240], by norm_num, by norm_num,
    by norm_num, by norm_num, by norm_num, by norm_num, ?_, ?_, ?_⟩
  · simp only [DS.project, h17, hfov, hpl]
    rw [if_neg (by simpa using hacc)]
    simp [Frame.toPixel]; norm_num
  · simp only [DS.project, h17, hfov, hpl]
    rw [if_neg (by simpa using hacc)]
    simp [Frame.toPixel, Frame.isValid]; norm_num
  · simp only [DS.backproject]
    rw [if_neg (by simp [DS.liftable])]
    refine ⟨_, rfl, ?_⟩
    have hr : ((DS.mk (n := 0) ⟨1, 1, 320, 240, 640, 480, noDistortion⟩ (-1 / 2) 0).lift ![290, 240]) = ![-30, 0] := by
      simp [DS.lift]; norm_num
    simp [hr, DS.rayK, DS.mz]
    norm_num
    rw [h26]
    norm_num

/-- **C87 fails for ξ > 0 in the other direction:** with ξ = 1/2 and α = 0 the keypoint (350, 240), inside the image, is
back-projected to a ray with the flag set, and the projection rejects that ray. -/
theorem C87_keypoint_counterexample : ∃ (c : DS 0) (k : V2) (p : V3), 0 < c.fu ∧ 0 < c.fv ∧ 0 ≤ c.alpha ∧ c.alpha ≤ 1 ∧
    -1 < c.xi ∧ c.xi ≤ 1 ∧ c.isValid k ∧ c.backproject k = (some p, True) ∧ c.project p = (none, False) := by
  have h1 : DS.d1 ![15 / 17, 0, -8 / 17] = 1 := by
    simp [DS.d1]; norm_num
  have hs : (17 : ℝ) / 16 < √(5 / 4) := Real.lt_sqrt_of_sq_lt (by norm_num)
  have h26 : √(676 : ℝ) = 26 := by rw [show (676:ℝ) = 26 ^ 2 by norm_num, Real.sqrt_sq (by norm_num)]
  have hfov : (DS.mk (n := 0) ⟨1, 1, 320, 240, 640, 480, noDistortion⟩ (1 / 2) 0).fovParameter = (1 / 2) / √(5 / 4) := by
    simp [DS.fovParameter, DS.temp]
    norm_num
  refine ⟨⟨⟨1, 1, 320, 240, 640, 480, noDistortion⟩, 1 / 2, 0⟩, ![350, 240], ![15 / 17, 0, -8 / 17], by norm_num,
    by norm_num, by norm_num, by norm_num, by norm_num, by norm_num, ?_, ?_, ?_⟩
  · simp [Frame.isValid]; norm_num
  · have hr : ((DS.mk (n := 0) ⟨1, 1, 320, 240, 640, 480, noDistortion⟩ (1 / 2) 0).lift ![350, 240]) = ![30, 0] := by
      simp [DS.lift]; norm_num
    simp only [DS.backproject]
    rw [if_neg (by simp [DS.liftable]), hr]
    have hk : (DS.mk (n := 0) ⟨1, 1, 320, 240, 640, 480, noDistortion⟩ (1 / 2) 0).rayK 900 = 1 / 34 := by
      simp [DS.rayK, DS.mz]; norm_num; rw [h26]; norm_num
    congr 2
    apply v3ext
    · simp; norm_num [hk]
    · simp
    · simp [DS.mz]; norm_num [hk]
  · simp only [DS.project, h1, hfov]
    have : (0:ℝ) < √(5 / 4) := by positivity
    have h2 : (1 / 2 : ℝ) / √(5 / 4) ≤ 8 / 17 := by
      rw [div_le_iff₀ this]; linarith
    rw [if_pos (by simp only [Matrix.cons_val]; linarith)]

/-- The theorem applies to a point behind a camera with ξ = 1/2, α = 1/2. -/
example : ∃ k, ((DS.mk (n := 0) ⟨400, 410, 320, 240, 640, 480, noDistortion⟩ (1 / 2) (1 / 2)).project ![3, 0, -4]).1 = some k := by
  have h : DS.d1 ![3, 0, -4] = 5 := by
    simp [DS.d1]; rw [show (3:ℝ) * 3 + 4 * 4 = 5 ^ 2 by norm_num, Real.sqrt_sq (by norm_num)]
  have hf : (DS.mk (n := 0) ⟨400, 410, 320, 240, 640, 480, noDistortion⟩ (1 / 2) (1 / 2)).fovParameter = 1 := by
    simp only [DS.fovParameter, DS.temp]
    rw [if_pos (by norm_num), show 2 * ((1:ℝ) / 2 / (1 - 1 / 2)) * (1 / 2) + 1 / 2 * (1 / 2) + 1 = (3 / 2) ^ 2 by norm_num,
      Real.sqrt_sq (by norm_num)]
    norm_num
  simp only [DS.project, hf, h]
  rw [if_neg (by simp; norm_num)]
  exact ⟨_, rfl⟩

/-! ### Jacobians -/

namespace DS

variable {n : ℕ} (c : DS n)

theorem cont_d1 : Continuous d1 := by unfold d1; fun_prop

theorem grad_d1 (p : V3) (h : 0 < d1 p) : GradAt d1 (fun j => p j / d1 p) p := by
  have e : d1 = Omni.norm3 := by funext q; exact d1_eq q
  rw [e] at h ⊢
  exact grad_norm3 p h

theorem grad_kk (p : V3) (h : 0 < d1 p) : GradAt c.kk (fun j => c.xi * (p j / d1 p) + if j = 2 then 1 else 0) p := by
  refine (((gradAt_const (x := p) c.xi).mul (grad_d1 p h)).add (gradAt_coord 2)).congr ?_
  funext j; simp

theorem grad_d2 (p : V3) (h : 0 < d1 p) (h2 : 0 < c.d2 p) :
    GradAt c.d2 (fun j => (![p 0, p 1, 0] j + c.kk p * (c.xi * (p j / d1 p) + if j = 2 then 1 else 0)) / c.d2 p) p := by
  have co (i : Fin 3) := gradAt_coord (x := p) i
  have h0 : p 0 * p 0 + p 1 * p 1 + c.kk p * c.kk p ≠ 0 := by
    have h3 := c.d2_sq p
    have : 0 < c.d2 p ^ 2 := by positivity
    intro h'
    nlinarith
  have := ((((co 0).mul (co 0)).add ((co 1).mul (co 1))).add ((c.grad_kk p h).mul (c.grad_kk p h))).sqrt h0
  have e' : √(p 0 * p 0 + p 1 * p 1 + c.kk p * c.kk p) = c.d2 p := rfl
  rw [e'] at this
  refine this.congr ?_
  funext j
  fin_cases j <;> simp <;> field_simp <;> ring

theorem grad_norm (p : V3) (h : 0 < d1 p) (h2 : 0 < c.d2 p) :
    GradAt c.norm (fun j =>
      c.alpha * ((![p 0, p 1, 0] j + c.kk p * (c.xi * (p j / d1 p) + if j = 2 then 1 else 0)) / c.d2 p)
        + (1 - c.alpha) * (c.xi * (p j / d1 p) + if j = 2 then 1 else 0)) p := by
  refine (((gradAt_const (x := p) c.alpha).mul (c.grad_d2 p h h2)).add
    ((gradAt_const (1 - c.alpha)).mul (c.grad_kk p h))).congr ?_
  funext j; simp

end DS

/-- **C55, double sphere, point.** For every accepted point the Jacobian returned with the projection is the derivative
of the keypoint (same range of ξ as C87_ray_partial, without the bound above). -/
theorem C55_ds_point {n : ℕ} (c : DS n) (ha : 0 ≤ c.alpha) (ha' : c.alpha ≤ 1) (hx : -1 < c.xi)
    (hxw : -(2 * (if c.alpha ≤ 1 / 2 then c.alpha / (1 - c.alpha) else (1 - c.alpha) / c.alpha)) ≤ c.xi)
    (p : V3) (k : V2) (hk : (c.project p).1 = some k) :
    IsPartialJacobianAt (fun q => (c.project q).1) (c.projectJ p) p := by
  have h : ¬ p 2 ≤ -(c.fovParameter * DS.d1 p) := by
    intro h; simp [DS.project, h] at hk
  have hev : ∀ᶠ q in nhds p, -(c.fovParameter * DS.d1 q) < q 2 := by
    have c1 : Continuous fun q : V3 => -(c.fovParameter * DS.d1 q) := (continuous_const.mul DS.cont_d1).neg
    have c2 : Continuous fun q : V3 => q 2 := continuous_apply 2
    exact c1.continuousAt.eventually_lt c2.continuousAt (not_le.1 h)
  obtain ⟨hd1, hd2, hN, -⟩ := DS.accepted ha ha' hx hxw (not_le.1 h)
  have co (i : Fin 3) := gradAt_coord (x := p) i
  have hr := (c.grad_norm p hd1 hd2).inv hN.ne'
  refine ⟨fun q => c.toPixel (c.plane q), ?_, isJacobianAt_iff.2 fun i => ?_⟩
  · filter_upwards [hev] with q hq
    simp only [DS.project, not_le.2 hq, if_false]
  · simp only [DS.projectJ]
    rw [if_neg h]
    fin_cases i
    · refine (((gradAt_const c.fu).mul ((co 0).mul hr)).add (gradAt_const c.cu)).congr ?_
      funext j
      generalize c.d2 p = d at *
      generalize c.norm p = N at *
      generalize DS.d1 p = e at *
      fin_cases j <;> simp [-mul_eq_mul_left_iff] <;> ring
    · refine (((gradAt_const c.fv).mul ((co 1).mul hr)).add (gradAt_const c.cv)).congr ?_
      funext j
      generalize c.d2 p = d at *
      generalize c.norm p = N at *
      generalize DS.d1 p = e at *
      fin_cases j <;> simp [-mul_eq_mul_left_iff] <;> ring

/-- **C55, double sphere, intrinsics.** For every accepted point the intrinsics Jacobian is the derivative of the keypoint
with respect to the update vector (ξ, α, fu, fv, cu, cv). -/
theorem C55_ds_intrinsics {n : ℕ} (c : DS n) (ha : 0 ≤ c.alpha) (ha' : c.alpha ≤ 1) (hx : -1 < c.xi)
    (hxw : -(2 * (if c.alpha ≤ 1 / 2 then c.alpha / (1 - c.alpha) else (1 - c.alpha) / c.alpha)) ≤ c.xi)
    (p : V3) (k : V2) (hk : (c.project p).1 = some k) :
    IsPartialJacobianAt (fun v => ((c.update v).project p).1) (c.intrinsicsJ p) 0 := by
  have h : ¬ p 2 ≤ -(c.fovParameter * DS.d1 p) := by
    intro h; simp [DS.project, h] at hk
  obtain ⟨hd1, hd2, hN, -⟩ := DS.accepted ha ha' hx hxw (not_le.1 h)
  have hu0 : c.update 0 = c := by simp [DS.update]
  have hev : ∀ᶠ v : Fin 6 → ℝ in nhds 0, -((c.update v).fovParameter * DS.d1 p) < p 2 := by
    have ct : Continuous fun v : Fin 6 → ℝ => (c.update v).temp := by
      simp only [DS.temp_eq, EUCM.fovParameter_eq, DS.second, DS.update]
      refine Continuous.div (by fun_prop) (by fun_prop) ?_
      intro v
      have h1 := le_max_right (c.alpha + v 1) (1 - (c.alpha + v 1))
      have h2 := le_max_left (c.alpha + v 1) (1 - (c.alpha + v 1))
      linarith
    have cx : Continuous fun v : Fin 6 → ℝ => (c.update v).xi := by
      simp only [DS.update]; fun_prop
    have c1 : ContinuousAt (fun v : Fin 6 → ℝ => -((c.update v).fovParameter * DS.d1 p)) 0 := by
      unfold DS.fovParameter
      refine (ContinuousAt.mul (ContinuousAt.div (ct.add cx).continuousAt ?_ ?_) continuousAt_const).neg
      · exact (((continuous_const.mul ct).mul cx).add (cx.mul cx) |>.add continuous_const).sqrt.continuousAt
      · rw [hu0]; exact (Real.sqrt_pos.2 (c.root_pos ha ha' hx)).ne'
    exact c1.eventually_lt continuousAt_const (by rw [hu0]; exact not_le.1 h)
  have co (i : Fin 6) := gradAt_coord (x := (0 : Fin 6 → ℝ)) i
  have K (c : ℝ) := gradAt_const (x := (0 : Fin 6 → ℝ)) c
  have gk := (((K c.xi).add (co 0)).mul (K (DS.d1 p))).add (K (p 2))
  have gd := ((K (p 0 * p 0 + p 1 * p 1)).add (gk.mul gk)).sqrt (by
    have h3 := c.d2_sq p
    have : 0 < c.d2 p ^ 2 := by positivity
    have hkk : c.kk p = c.xi * DS.d1 p + p 2 := rfl
    simp only [Pi.zero_apply, add_zero]
    rw [← hkk]
    intro h'
    nlinarith)
  have gn := (((K c.alpha).add (co 1)).mul gd).add (((K 1).sub ((K c.alpha).add (co 1))).mul gk)
  have gr := gn.inv (by
    simp only [Pi.zero_apply, add_zero]
    exact hN.ne')
  simp only [Pi.zero_apply, add_zero] at gr
  rw [show √(p 0 * p 0 + p 1 * p 1 + (c.xi * DS.d1 p + p 2) * (c.xi * DS.d1 p + p 2)) = c.d2 p from rfl,
    show c.xi * DS.d1 p + p 2 = c.kk p from rfl,
    show c.alpha * c.d2 p + (1 - c.alpha) * c.kk p = c.norm p from rfl] at gr
  have g0 : ∀ z : ℝ, GradAt (fun v => z * (1 / ((c.update v).norm p))) _ 0 := fun z => (K z).mul gr
  have hz : (c.update 0).norm p = c.norm p := by rw [hu0]
  refine ⟨fun v => (c.update v).toPixel ((c.update v).plane p), ?_, isJacobianAt_iff.2 fun i => ?_⟩
  · filter_upwards [hev] with v hv
    simp only [DS.project, not_le.2 hv, if_false]
  · have e0 : 1 / ((c.alpha + (0 : Fin 6 → ℝ) 1)
        * √(p 0 * p 0 + p 1 * p 1 + ((c.xi + (0 : Fin 6 → ℝ) 0) * DS.d1 p + p 2) * ((c.xi + (0 : Fin 6 → ℝ) 0) * DS.d1 p + p 2))
          + (1 - (c.alpha + (0 : Fin 6 → ℝ) 1)) * ((c.xi + (0 : Fin 6 → ℝ) 0) * DS.d1 p + p 2)) = 1 / c.norm p := by
      simp only [Pi.zero_apply, add_zero]; rfl
    simp only [DS.intrinsicsJ]
    fin_cases i
    · refine ((((K c.fu).add (co 2)).mul (g0 (p 0))).add ((K c.cu).add (co 4))).congr ?_
      rw [hz]
      funext j
      generalize c.d2 p = d at *
      generalize c.norm p = N at *
      generalize DS.d1 p = e at *
      fin_cases j <;> simp [-mul_eq_mul_left_iff] <;> field_simp <;> ring
    · refine ((((K c.fv).add (co 3)).mul (g0 (p 1))).add ((K c.cv).add (co 5))).congr ?_
      rw [hz]
      funext j
      generalize c.d2 p = d at *
      generalize c.norm p = N at *
      generalize DS.d1 p = e at *
      fin_cases j <;> simp [-mul_eq_mul_left_iff] <;> field_simp <;> ring

/-- **C56, double sphere.** A homogeneous point with non-zero scale and its negation project alike, with or without the
Jacobian being requested, and like the point divided by its scale. -/
theorem C56_ds_partial {n : ℕ} (c : DS n) (ph : V4) (h : ph 3 ≠ 0) :
    c.projectH (-ph) = c.projectH ph ∧ c.projectHJ ph = c.projectH ph ∧ c.projectHJ (-ph) = c.projectH ph ∧
      c.projectH ph = c.project ((1 / ph 3) • head3 ph) := by
  unfold DS.projectH DS.projectHJ
  rw [head3_neg, neg_neg, Pi.neg_apply]
  rcases lt_or_gt_of_ne h with h | h
  · rw [if_neg (by linarith), if_pos h]
    refine ⟨rfl, rfl, rfl, ?_⟩
    rw [smul_head3 h, c.project_smul (by simpa using h)]
  · rw [if_pos (by linarith), if_neg (by linarith)]
    refine ⟨rfl, rfl, rfl, ?_⟩
    rw [c.project_smul (by positivity)]

namespace DS

variable {n : ℕ} (c : DS n)

/-- The derivative of `mz`, as the code computes it. -/
noncomputable def dmz (r : ℝ) : ℝ :=
  (1 / 2 * c.alpha - c.alpha * c.alpha) * (r * (c.alpha * c.alpha) - 1) * (1 / √(1 - (2 * c.alpha - 1) * r))
      * (1 / (c.alpha * √(1 - (2 * c.alpha - 1) * r) + 1 - c.alpha) * (1 / (c.alpha * √(1 - (2 * c.alpha - 1) * r) + 1 - c.alpha)))
    - c.alpha * c.alpha * (1 / (c.alpha * √(1 - (2 * c.alpha - 1) * r) + 1 - c.alpha))

theorem hasDerivAt_mz (r : ℝ) (h : 0 < 1 - (2 * c.alpha - 1) * r)
    (hB : 0 < c.alpha * √(1 - (2 * c.alpha - 1) * r) + 1 - c.alpha) : HasDerivAt c.mz (c.dmz r) r := by
  have hq := Real.sqrt_pos.2 h
  have d1 : HasDerivAt (fun r => 1 - (2 * c.alpha - 1) * r) (-(2 * c.alpha - 1)) r := by
    simpa using ((hasDerivAt_id r).const_mul (2 * c.alpha - 1)).const_sub 1
  have d2 := (((d1.sqrt h.ne').const_mul c.alpha).add_const (1 : ℝ)).sub_const c.alpha
  have d3 : HasDerivAt (fun r => 1 - c.alpha * c.alpha * r) (-(c.alpha * c.alpha)) r := by
    simpa using ((hasDerivAt_id r).const_mul (c.alpha * c.alpha)).const_sub 1
  refine (d3.fun_div d2 hB.ne').congr_deriv ?_
  unfold dmz
  generalize √(1 - (2 * c.alpha - 1) * r) = q at *
  obtain ⟨B, hBe⟩ : ∃ B, B = c.alpha * q + 1 - c.alpha := ⟨_, rfl⟩
  rw [← hBe] at hB ⊢
  field_simp
  ring

/-- The derivative of `rayK`, as the code computes it. -/
noncomputable def dk (r : ℝ) : ℝ :=
  (c.xi * c.dmz r + 1 / 2 * (1 / √(c.mz r * c.mz r + (1 - c.xi * c.xi) * r)) * (2 * c.mz r * c.dmz r + 1 - c.xi * c.xi))
      * (1 / (c.mz r * c.mz r + r))
    - (c.mz r * c.xi + √(c.mz r * c.mz r + (1 - c.xi * c.xi) * r)) * (2 * c.mz r * c.dmz r + 1)
      * (1 / (c.mz r * c.mz r + r) * (1 / (c.mz r * c.mz r + r)))

theorem hasDerivAt_rayK (r : ℝ) (h : HasDerivAt c.mz (c.dmz r) r) (h1 : 0 < c.mz r * c.mz r + (1 - c.xi * c.xi) * r)
    (h2 : 0 < c.mz r * c.mz r + r) : HasDerivAt c.rayK (c.dk r) r := by
  have hq := Real.sqrt_pos.2 h1
  have d1 := h.fun_mul h
  have d2 := (d1.fun_add ((hasDerivAt_id r).const_mul (1 - c.xi * c.xi))).sqrt h1.ne'
  have d3 := (h.mul_const c.xi).fun_add d2
  have d4 := d1.fun_add (hasDerivAt_id r)
  refine (d3.fun_div d4 h2.ne').congr_deriv ?_
  unfold dk
  simp only [id]
  generalize √(c.mz r * c.mz r + (1 - c.xi * c.xi) * r) = q at *
  generalize c.mz r * c.mz r + r = B at *
  field_simp
  ring

end DS

/-- **C55, double sphere, back-projection.** For ξ in (-1, 1) and a keypoint inside the circle the model can reach, the
Jacobian returned by keypointToEuclidean is the derivative of the ray. -/
theorem C55_ds_ray {n : ℕ} (c : DS n) (ha : 0 ≤ c.alpha) (ha' : c.alpha ≤ 1) (hx : -1 < c.xi) (hx1 : c.xi < 1) (k : V2)
    (h : (2 * c.alpha - 1) * (((k 0 - c.cu) / c.fu) ^ 2 + ((k 1 - c.cv) / c.fv) ^ 2) < 1) :
    IsPartialJacobianAt (fun q => (c.backproject q).1) (c.backprojectJ k) k := by
  have hlf : (fun q => c.lift q) = fun q => Pinhole.lift c.toFrame q := by funext q; exact DS.lift_eq c q
  have hlJ : IsJacobianAt (fun q => c.lift q) (!![1 / c.fu, 0; 0, 1 / c.fv] : M2) k := by
    rw [hlf]; exact jac_lift c.toFrame k
  have hrow := isJacobianAt_iff.1 hlJ
  have hr2 (q : V2) : c.lift q 0 * c.lift q 0 + c.lift q 1 * c.lift q 1
      = ((q 0 - c.cu) / c.fu) ^ 2 + ((q 1 - c.cv) / c.fv) ^ 2 := by
    rw [DS.lift_eq]; simp [Pinhole.lift]; ring
  have hopen (q : V2) (hq : (2 * c.alpha - 1) * (((q 0 - c.cu) / c.fu) ^ 2 + ((q 1 - c.cv) / c.fv) ^ 2) < 1) :
      c.liftable (c.lift q 0 * c.lift q 0 + c.lift q 1 * c.lift q 1) := by
    rw [hr2]
    unfold DS.liftable
    by_cases h : c.alpha ≤ 1 / 2
    · exact Or.inl h
    · right
      push Not at h
      rw [le_div_iff₀ (by linarith)]
      linarith
  have hev : ∀ᶠ q : V2 in nhds k,
      (2 * c.alpha - 1) * (((q 0 - c.cu) / c.fu) ^ 2 + ((q 1 - c.cv) / c.fv) ^ 2) < 1 := by
    have c1 : Continuous fun q : V2 =>
      (2 * c.alpha - 1) * (((q 0 - c.cu) / c.fu) ^ 2 + ((q 1 - c.cv) / c.fv) ^ 2) := by fun_prop
    exact c1.continuousAt.eventually_lt continuousAt_const h
  have hR0 : 0 ≤ c.lift k 0 * c.lift k 0 + c.lift k 1 * c.lift k 1 :=
    add_nonneg (mul_self_nonneg _) (mul_self_nonneg _)
  have hR1 : (2 * c.alpha - 1) * (c.lift k 0 * c.lift k 0 + c.lift k 1 * c.lift k 1) < 1 := by
    rw [hr2]; exact h
  obtain ⟨f1, f2, -⟩ := c.rayK_facts ha ha' hx hx1 _ hR0 hR1
  have gR := ((hrow 0).mul (hrow 0)).add ((hrow 1).mul (hrow 1))
  have hq : 0 < 1 - (2 * c.alpha - 1) * (c.lift k 0 * c.lift k 0 + c.lift k 1 * c.lift k 1) := by linarith
  have hq1 := Real.sqrt_pos.2 hq
  have hB : 0 < c.alpha * √(1 - (2 * c.alpha - 1) * (c.lift k 0 * c.lift k 0 + c.lift k 1 * c.lift k 1)) + 1 - c.alpha := by
    rcases ha.lt_or_eq with h | h
    · have := mul_pos h hq1
      linarith
    · rw [← h]; norm_num
  have dm := c.hasDerivAt_mz _ hq hB
  have gM := GradAt.comp (φ := c.mz) dm gR
  have gK := GradAt.comp (φ := c.rayK) (c.hasDerivAt_rayK _ dm f2 (by rw [← sq]; exact f1)) gR
  refine ⟨fun q => ![c.rayK (c.lift q 0 * c.lift q 0 + c.lift q 1 * c.lift q 1) * c.lift q 0,
    c.rayK (c.lift q 0 * c.lift q 0 + c.lift q 1 * c.lift q 1) * c.lift q 1,
    c.rayK (c.lift q 0 * c.lift q 0 + c.lift q 1 * c.lift q 1) * c.mz (c.lift q 0 * c.lift q 0 + c.lift q 1 * c.lift q 1)
      - c.xi], ?_, isJacobianAt_iff.2 fun i => ?_⟩
  · filter_upwards [hev] with q hq
    simp only [DS.backproject]
    rw [if_neg (by simpa using hopen q hq)]
  · obtain ⟨m0, hm0⟩ : ∃ m0, m0 = c.lift k 0 := ⟨_, rfl⟩
    obtain ⟨m1, hm1⟩ : ∃ m1, m1 = c.lift k 1 := ⟨_, rfl⟩
    have hJ : c.backprojectJ k
      = !![1 / c.fu * (m0 * (c.dk (m0 * m0 + m1 * m1) * 2 * m0) + c.rayK (m0 * m0 + m1 * m1)),
            1 / c.fv * m0 * (c.dk (m0 * m0 + m1 * m1) * 2 * m1);
          1 / c.fu * m1 * (c.dk (m0 * m0 + m1 * m1) * 2 * m0),
            1 / c.fv * (m1 * (c.dk (m0 * m0 + m1 * m1) * 2 * m1) + c.rayK (m0 * m0 + m1 * m1));
          1 / c.fu * (c.mz (m0 * m0 + m1 * m1) * (c.dk (m0 * m0 + m1 * m1) * 2 * m0)
            + c.rayK (m0 * m0 + m1 * m1) * (2 * m0 * c.dmz (m0 * m0 + m1 * m1))),
          1 / c.fv * (c.mz (m0 * m0 + m1 * m1) * (c.dk (m0 * m0 + m1 * m1) * 2 * m1)
            + c.rayK (m0 * m0 + m1 * m1) * (2 * m1 * c.dmz (m0 * m0 + m1 * m1)))] := by
      have e1 : c.mz (m0 * m0 + m1 * m1) = (1 - c.alpha * c.alpha * (m0 * m0 + m1 * m1))
        * (1 / (c.alpha * √(1 - (2 * c.alpha - 1) * (m0 * m0 + m1 * m1)) + 1 - c.alpha)) := by
        unfold DS.mz; rw [div_eq_mul_one_div]
      have e2 : c.rayK (m0 * m0 + m1 * m1) = (c.mz (m0 * m0 + m1 * m1) * c.xi
        + √(c.mz (m0 * m0 + m1 * m1) * c.mz (m0 * m0 + m1 * m1) + (1 - c.xi * c.xi) * (m0 * m0 + m1 * m1)))
          * (1 / (c.mz (m0 * m0 + m1 * m1) * c.mz (m0 * m0 + m1 * m1) + (m0 * m0 + m1 * m1))) := by
        unfold DS.rayK; simp only; rw [div_eq_mul_one_div]
      simp only [DS.dk, DS.dmz, e2]
      simp only [e1, DS.backprojectJ, ← hm0, ← hm1]
    rw [hJ, hm0, hm1]
    fin_cases i
    · refine (gK.mul (hrow 0)).congr ?_
      funext j
      fin_cases j <;> simp <;> ring
    · refine (gK.mul (hrow 1)).congr ?_
      funext j
      fin_cases j <;> simp <;> ring
    · refine ((gK.mul gM).sub (gradAt_const c.xi)).congr ?_
      funext j
      fin_cases j <;> simp <;> ring

end Kalibr.Camera
