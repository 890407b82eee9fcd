import Verif.Kinematics.EulerTrip
import Verif.Kinematics.RVJacobian
import Verif.Kinematics.Update

/-!
# Rates and angular velocity (C83), Rodrigues parameters (C85)
-/

namespace Kalibr.Kin

open Matrix Real

set_option linter.unusedSimpArgs false

/-! ## C83 -/

theorem comp_deriv4 {p : ℝ → V4} {r : V4} {t : ℝ} (h : HasDerivAt p r t) (i : Fin 4) :
    HasDerivAt (fun s => p s i) (r i) t := hasDerivAt_pi.mp h i

/-- Unit quaternions: the S matrix times the rates is the angular velocity of the rotation matrix. -/
theorem C83_quaternion_rates (q : ℝ → V4) (r : V4) (t : ℝ) (h : HasDerivAt q r t) (hu : ∀ s, Unit4 (q s)) :
    AngularVelocity (fun s => quat2r (q s)) ((quatS (q t)).mulVec r) t := by
  have h0 := comp_deriv4 h 0; have h1 := comp_deriv4 h 1; have h2 := comp_deriv4 h 2; have h3 := comp_deriv4 h 3
  have hut := hu t
  have horth : q t 0 * r 0 + q t 1 * r 1 + q t 2 * r 2 + q t 3 * r 3 = 0 := by
    have hd := (((h0.fun_pow 2).fun_add (h1.fun_pow 2)).fun_add (h2.fun_pow 2)).fun_add (h3.fun_pow 2)
    have hc : (fun s => q s 0 ^ 2 + q s 1 ^ 2 + q s 2 ^ 2 + q s 3 ^ 2) = fun _ => (1 : ℝ) := funext hu
    rw [hc] at hd
    have := hd.unique (hasDerivAt_const t 1)
    simp at this
    linarith
  unfold Unit4 at hut
  clear hu h
  have m01 := h0.fun_mul h1; have m02 := h0.fun_mul h2; have m03 := h0.fun_mul h3
  have m12 := h1.fun_mul h2; have m13 := h1.fun_mul h3; have m23 := h2.fun_mul h3
  have s0 := h0.fun_mul h0; have s1 := h1.fun_mul h1; have s2 := h2.fun_mul h2; have s3 := h3.fun_mul h3
  apply angular_of_entries
  intro i j
  fin_cases i <;> fin_cases j
  · refine hasDeriv_of (((s0.fun_sub s1).fun_sub s2).fun_add s3) ?_ ?_
    · funext s; simp [quat2r]
    · simp [crossMx, quatS, quat2r, Matrix.mulVec, dotProduct, Fin.sum_univ_succ, Matrix.vecMul]; clear * - hut horth; grind
  · refine hasDeriv_of ((m01.fun_add m23).mul_const 2) ?_ ?_
    · funext s; simp [quat2r]; try ring
    · simp [crossMx, quatS, quat2r, Matrix.mulVec, dotProduct, Fin.sum_univ_succ, Matrix.vecMul]; clear * - hut horth; grind
  · refine hasDeriv_of ((m02.fun_sub m13).mul_const 2) ?_ ?_
    · funext s; simp [quat2r]; try ring
    · simp [crossMx, quatS, quat2r, Matrix.mulVec, dotProduct, Fin.sum_univ_succ, Matrix.vecMul]; clear * - hut horth; grind
  · refine hasDeriv_of ((m01.fun_sub m23).mul_const 2) ?_ ?_
    · funext s; simp [quat2r]; try ring
    · simp [crossMx, quatS, quat2r, Matrix.mulVec, dotProduct, Fin.sum_univ_succ, Matrix.vecMul]; clear * - hut horth; grind
  · refine hasDeriv_of (((s1.fun_sub s0).fun_sub s2).fun_add s3) ?_ ?_
    · funext s; simp [quat2r]; try ring
    · simp [crossMx, quatS, quat2r, Matrix.mulVec, dotProduct, Fin.sum_univ_succ, Matrix.vecMul]; clear * - hut horth; grind
  · refine hasDeriv_of ((m03.fun_add m12).mul_const 2) ?_ ?_
    · funext s; simp [quat2r]; try ring
    · simp [crossMx, quatS, quat2r, Matrix.mulVec, dotProduct, Fin.sum_univ_succ, Matrix.vecMul]; clear * - hut horth; grind
  · refine hasDeriv_of ((m02.fun_add m13).mul_const 2) ?_ ?_
    · funext s; simp [quat2r]; try ring
    · simp [crossMx, quatS, quat2r, Matrix.mulVec, dotProduct, Fin.sum_univ_succ, Matrix.vecMul]; clear * - hut horth; grind
  · refine hasDeriv_of ((m12.fun_sub m03).mul_const 2) ?_ ?_
    · funext s; simp [quat2r]; try ring
    · simp [crossMx, quatS, quat2r, Matrix.mulVec, dotProduct, Fin.sum_univ_succ, Matrix.vecMul]; clear * - hut horth; grind
  · refine hasDeriv_of (((s2.fun_sub s0).fun_sub s1).fun_add s3) ?_ ?_
    · funext s; simp [quat2r]; try ring
    · simp [crossMx, quatS, quat2r, Matrix.mulVec, dotProduct, Fin.sum_univ_succ, Matrix.vecMul]; clear * - hut horth; grind

/-- Unit quaternions: the two matrices are inverse to each other between angular velocities and the rates of unit
quaternions. -/
theorem C83_quaternion_inverse (q : V4) (hq : Unit4 q) : quatS q * quatInvS q = 1 ∧
    (∀ ω, q 0 * (quatInvS q).mulVec ω 0 + q 1 * (quatInvS q).mulVec ω 1 + q 2 * (quatInvS q).mulVec ω 2 +
      q 3 * (quatInvS q).mulVec ω 3 = 0) ∧
    ∀ r : V4, q 0 * r 0 + q 1 * r 1 + q 2 * r 2 + q 3 * r 3 = 0 → (quatInvS q).mulVec ((quatS q).mulVec r) = r := by
  unfold Unit4 at hq
  refine ⟨?_, fun ω => ?_, fun r hr => ?_⟩
  · ext i j
    fin_cases i <;> fin_cases j <;> simp [quatS, quatInvS, Matrix.mul_apply, Fin.sum_univ_succ, Matrix.vecMul, dotProduct] <;> grind
  · simp [quatInvS, Matrix.mulVec, dotProduct, Fin.sum_univ_succ]
    ring
  · ext i
    fin_cases i <;> simp [quatS, quatInvS, Matrix.mulVec, dotProduct, Fin.sum_univ_succ] <;> grind

/-- Rotation vectors from the threshold on and shorter than a full turn: the matrix returned for the inverse is the inverse of the S
matrix, on both sides. -/
theorem C83_rotation_vector_inverse_partial (p : V3) (h : 1 / 10 ^ 14 < norm3 p) (h2 : norm3 p < 2 * π) :
    rvInvS p * rvS p = 1 ∧ rvS p * rvInvS p = 1 := by
  have hpos : 0 < norm3 p := lt_trans (by norm_num) h
  have hsp : 0 < sin (norm3 p / 2) := sin_pos_of_pos_of_lt_pi (by linarith) (by linarith)
  have hs2 : cos (norm3 p) = 1 - 2 * sin (norm3 p / 2) ^ 2 := by
    have := cos_two_mul (norm3 p / 2)
    rw [cos_sq', show 2 * (norm3 p / 2) = norm3 p by ring] at this
    rw [this]; ring
  have hS : ∀ v, (rvS p).mulVec v = v + (-(1 - cos (norm3 p)) * (1 / norm3 p) ^ 2) • crossProduct p v
      + ((1 - sin (norm3 p) * (1 / norm3 p)) * (1 / norm3 p) ^ 2) • crossProduct p (crossProduct p v) :=
    fun v => rvS_eq p v h
  have hSm : rvS p = 1 + (-(1 - cos (norm3 p)) * (1 / norm3 p) ^ 2) • crossMx p
      + ((1 - sin (norm3 p) * (1 / norm3 p)) * (1 / norm3 p) ^ 2) • (crossMx p * crossMx p) := by
    have hcol (A B : M3) (hAB : ∀ v, A.mulVec v = B.mulVec v) : A = B := by
      ext i j
      have := congrFun (hAB (Pi.single j 1)) i
      simpa using this
    apply hcol
    intro v
    rw [hS v]
    ext i
    fin_cases i <;> simp [crossMx, crossProduct, Matrix.mulVec, dotProduct, Fin.sum_univ_three, Matrix.vecHead,
      Matrix.vecTail, Matrix.vecMul, Matrix.one_apply, Matrix.mul_apply, -one_div] <;> ring
  have hI : rvInvS p = 1 + (1 / 2 : ℝ) • crossMx p + (1 / (norm3 p * norm3 p) *
      (1 - 1 / 2 * norm3 p * (-sin (norm3 p) / (cos (norm3 p) - 1)))) • (crossMx p * crossMx p) := by
    unfold rvInvS
    have he : √(p 0 * p 0 + p 1 * p 1 + p 2 * p 2) = norm3 p := by
      unfold norm3; congr 1; ring
    simp only [he]
    rw [if_neg hpos.ne']
  have h1c : cos (norm3 p) - 1 ≠ 0 := by rw [hs2]; nlinarith [pow_pos hsp 2]
  have hcube : crossMx p * crossMx p * crossMx p = -(norm3 p ^ 2) • crossMx p := by
    rw [norm3_sq]
    ext i j
    fin_cases i <;> fin_cases j <;> simp [crossMx, Matrix.mul_apply, Fin.sum_univ_three, Matrix.vecMul, dotProduct] <;> ring
  have hsc := sin_sq_add_cos_sq (norm3 p)
  rw [hSm, hI]
  generalize crossMx p = A at *
  obtain ⟨x, hx⟩ : ∃ x, x = -(1 - cos (norm3 p)) * (1 / norm3 p) ^ 2 := ⟨_, rfl⟩
  obtain ⟨y, hy⟩ : ∃ y, y = (1 - sin (norm3 p) * (1 / norm3 p)) * (1 / norm3 p) ^ 2 := ⟨_, rfl⟩
  obtain ⟨z, hz⟩ : ∃ z, z = 1 / (norm3 p * norm3 p) * (1 - 1 / 2 * norm3 p * (-sin (norm3 p) / (cos (norm3 p) - 1))) :=
    ⟨_, rfl⟩
  rw [← hx, ← hy, ← hz]
  have hcube' : A * (A * A) = -(norm3 p ^ 2) • A := by rw [← Matrix.mul_assoc]; exact hcube
  have h4 : A * A * (A * A) = -(norm3 p ^ 2) • (A * A) := by
    rw [← Matrix.mul_assoc, hcube, Matrix.smul_mul]
  have e1 : x + 1 / 2 - norm3 p ^ 2 * (1 / 2 * y + z * x) = 0 := by
    rw [hx, hy, hz]; field_simp; grind
  have e2 : y + z + 1 / 2 * x - norm3 p ^ 2 * (y * z) = 0 := by
    rw [hx, hy, hz]; field_simp; grind
  have expand (u v w s : ℝ) : ((1 : M3) + u • A + v • (A * A)) * (1 + w • A + s • (A * A)) =
      1 + (u + w - norm3 p ^ 2 * (u * s + v * w)) • A + (v + s + u * w - norm3 p ^ 2 * (v * s)) • (A * A) := by
    simp only [add_mul, mul_add, one_mul, mul_one, Matrix.smul_mul, Matrix.mul_smul, hcube, hcube', h4, smul_smul]
    module
  constructor
  · rw [expand]
    rw [show 1 / 2 + x - norm3 p ^ 2 * (1 / 2 * y + z * x) = 0 by linarith,
      show z + y + 1 / 2 * x - norm3 p ^ 2 * (z * y) = 0 by linarith]
    simp
  · rw [expand]
    rw [show x + 1 / 2 - norm3 p ^ 2 * (x * z + y * (1 / 2)) = 0 by linarith,
      show y + z + x * (1 / 2) - norm3 p ^ 2 * (y * z) = 0 by linarith]
    simp

example : (∀ s, Unit4 (![sin s, 0, 0, cos s])) ∧ HasDerivAt (fun s : ℝ => (![sin s, 0, 0, cos s] : V4))
    ![cos 1, 0, 0, -sin 1] 1 := by
  refine ⟨fun s => ?_, ?_⟩
  · simp [Unit4]
  · rw [hasDerivAt_pi]
    intro i
    fin_cases i
    · exact hasDerivAt_sin 1
    · exact hasDerivAt_const _ _
    · exact hasDerivAt_const _ _
    · exact hasDerivAt_cos 1

example : 1 / 10 ^ 14 < norm3 ![1, 0, 0] ∧ norm3 ![1, 0, 0] < 2 * π := by
  have : norm3 ![1, 0, 0] = 1 := by simp [norm3]
  rw [this]
  exact ⟨by norm_num, by linarith [pi_gt_three]⟩

/-! ## C85: Rodrigues parameters -/

theorem sqNorm3_eq (p : V3) : sqNorm3 p = norm3 p ^ 2 := by rw [norm3_sq]; rfl

/-- The matrix of Rodrigues parameters is the turn by twice the arc tangent of their length. -/
theorem er_eq {a : ℝ} {e : V3} (he : Unit3 e) (h : cos (a / 2) ≠ 0) : erToR (tan (a / 2) • e) = axisAngleMx a e := by
  have hs2 : cos a = 2 * cos (a / 2) ^ 2 - 1 := by
    rw [← cos_two_mul]; congr 1; ring
  have hs1 : sin a = 2 * sin (a / 2) * cos (a / 2) := by rw [← sin_two_mul]; congr 1; ring
  have hsc := sin_sq_add_cos_sq (a / 2)
  have hn : 2 / (1 + sqNorm3 (tan (a / 2) • e)) = 2 * cos (a / 2) ^ 2 := by
    unfold Unit3 at he
    have : sqNorm3 (tan (a / 2) • e) = tan (a / 2) ^ 2 := by
      simp only [sqNorm3, Pi.smul_apply, smul_eq_mul]
      linear_combination tan (a / 2) ^ 2 * he
    rw [this, tan_eq_sin_div_cos]
    rw [div_eq_iff (by positivity)]
    field_simp
    linarith
  have ht : tan (a / 2) * cos (a / 2) = sin (a / 2) := by rw [tan_eq_sin_div_cos]; field_simp
  unfold erToR axisAngleMx
  simp only [hn]
  rw [hs1, hs2]
  unfold Unit3 at he
  generalize tan (a / 2) = t at *
  generalize sin (a / 2) = s at *
  generalize cos (a / 2) = c at *
  clear hn hs1 hs2
  ext i j
  fin_cases i <;> fin_cases j <;>
    simp [crossMx, Matrix.mul_apply, Fin.sum_univ_three, Matrix.one_apply, Matrix.vecMul, dotProduct] <;> grind

theorem of_norm {p : V3} (h : 0 < norm3 p) : p = tan ((2 * arctan (norm3 p)) / 2) • ((1 / norm3 p) • p) := by
  rw [show 2 * arctan (norm3 p) / 2 = arctan (norm3 p) by ring, tan_arctan, smul_smul]
  rw [show norm3 p * (1 / norm3 p) = 1 by field_simp, one_smul]

/-- Every triple of Rodrigues parameters gives a proper rotation: the turn about their direction by twice the arc tangent
of their length. -/
theorem C85_rodrigues_rotation (p : V3) : erToR p ∈ SO3 ∧
    (p ≠ 0 → ∀ v, (erToR p).mulVec v = turn (2 * arctan (norm3 p)) ((1 / norm3 p) • p) v) := by
  by_cases hp : 0 < norm3 p
  · have h2 := of_norm hp
    have hc : cos (2 * arctan (norm3 p) / 2) ≠ 0 := by
      rw [show 2 * arctan (norm3 p) / 2 = arctan (norm3 p) by ring]; exact (cos_arctan_pos _).ne'
    have he := er_eq (unit_of_norm hp) hc
    rw [← h2] at he
    rw [he]
    exact ⟨axisAngleMx_mem _ _ (unit_of_norm hp), fun _ => axisAngleMx_turn _ _⟩
  · have h0 : norm3 p = 0 := le_antisymm (not_lt.mp hp) (norm3_nonneg p)
    have hz : p = 0 := by
      have := norm3_sq p
      rw [h0] at this
      apply ext3 <;> simp <;> nlinarith [sq_nonneg (p 0), sq_nonneg (p 1), sq_nonneg (p 2)]
    refine ⟨?_, fun h => absurd hz h⟩
    have : erToR p = 1 := by
      rw [hz]; ext i j; fin_cases i <;> fin_cases j <;> simp [erToR, crossMx]
    rw [this]
    exact Submonoid.one_mem _

theorem erOf_eq {a : ℝ} {e : V3} (he : Unit3 e) (h0 : 1 / 10 ^ 14 ≤ a) (hp : a ≤ π) (hs : 1 / 10 ^ 14 ≤ 2 * sin a) :
    erOfR (axisAngleMx a e) = tan (a / 2) • e := by
  have h14 : (0 : ℝ) < 1 / 10 ^ 14 := by norm_num
  have hsa : 0 < sin a := by linarith
  have htr : (axisAngleMx a e 0 0 + axisAngleMx a e 1 1 + axisAngleMx a e 2 2 - 1) * (1 / 2) = cos a := by
    unfold Unit3 at he
    simp [axisAngleMx]
    linear_combination (1 / 2 - cos a / 2) * he
  have hax : (![axisAngleMx a e 2 1 - axisAngleMx a e 1 2, axisAngleMx a e 0 2 - axisAngleMx a e 2 0,
      axisAngleMx a e 1 0 - axisAngleMx a e 0 1] : V3) = (-(2 * sin a)) • e := by
    apply ext3 <;> simp [axisAngleMx] <;> ring
  unfold erOfR
  simp only [htr, hax]
  rw [arccos_cos (by linarith) hp, abs_of_nonneg (by linarith), if_neg (by linarith), norm3_unit he, abs_neg,
    abs_of_pos (by linarith), if_neg (by linarith), smul_smul, show 1 / 2 * a = a / 2 by ring]
  congr 1
  field_simp

/-- Rodrigues parameters are recovered from the matrix, if they are zero or their length is between `1e-14` and
`1e14`. -/
theorem C85_rodrigues_parameters_partial (p : V3) (h : p = 0 ∨ 1 / 10 ^ 14 ≤ norm3 p ∧ norm3 p ≤ 10 ^ 14) :
    erOfR (erToR p) = p := by
  rcases h with rfl | ⟨h0, h1⟩
  · have : erToR 0 = 1 := by
      ext i j; fin_cases i <;> fin_cases j <;> simp [erToR, crossMx]
    rw [this]
    unfold erOfR
    norm_num
  · have h14 : (0 : ℝ) < 1 / 10 ^ 14 := by norm_num
    have hp : 0 < norm3 p := by linarith
    have hc : cos (2 * arctan (norm3 p) / 2) ≠ 0 := by
      rw [show 2 * arctan (norm3 p) / 2 = arctan (norm3 p) by ring]; exact (cos_arctan_pos _).ne'
    have hs : sin (2 * arctan (norm3 p)) = 2 * norm3 p / (1 + norm3 p ^ 2) := by
      rw [sin_two_mul, sin_arctan, cos_arctan]
      have : √(1 + norm3 p ^ 2) ^ 2 = 1 + norm3 p ^ 2 := Real.sq_sqrt (by positivity)
      have hq : 0 < √(1 + norm3 p ^ 2) := Real.sqrt_pos.mpr (by positivity)
      generalize √(1 + norm3 p ^ 2) = w at *
      rw [← this]
      field_simp
    have hs' : 1 / 10 ^ 14 ≤ 2 * sin (2 * arctan (norm3 p)) := by
      rw [hs, ← mul_div_assoc, div_le_div_iff₀ (by norm_num) (by positivity)]
      by_cases h2 : norm3 p ≤ 1
      · rw [div_le_iff₀ (by norm_num)] at h0
        nlinarith
      · nlinarith
    have hlow : 1 / 10 ^ 14 ≤ 2 * arctan (norm3 p) := by
      have hpos : 0 < arctan (norm3 p) := by rw [← arctan_zero]; exact arctan_strictMono hp
      by_cases h2 : norm3 p ≤ 1
      · have := Real.sin_le (x := 2 * arctan (norm3 p)) (by linarith)
        rw [hs] at this
        have h3 : norm3 p ≤ 2 * norm3 p / (1 + norm3 p ^ 2) := by
          rw [le_div_iff₀ (by positivity)]; nlinarith
        linarith
      · have : arctan 1 ≤ arctan (norm3 p) := arctan_mono (by linarith)
        rw [arctan_one] at this
        have h3 : (1 : ℝ) / 10 ^ 14 ≤ 1 := by norm_num
        linarith [pi_gt_three]
    have h2 := of_norm hp
    have he := er_eq (unit_of_norm hp) hc
    rw [← h2] at he
    rw [he, erOf_eq (unit_of_norm hp) hlow (by linarith [arctan_lt_pi_div_two (norm3 p)]) hs', ← h2]

/-- Half turns have no Rodrigues parameters; they come back as the identity. -/
theorem C85_half_turn_counterexample (e : V3) (he : Unit3 e) : erOfR (axisAngleMx π e) = 0 ∧
    erToR (erOfR (axisAngleMx π e)) ≠ axisAngleMx π e := by
  have hax : (![axisAngleMx π e 2 1 - axisAngleMx π e 1 2, axisAngleMx π e 0 2 - axisAngleMx π e 2 0,
      axisAngleMx π e 1 0 - axisAngleMx π e 0 1] : V3) = 0 := by
    apply ext3 <;> simp [axisAngleMx]
  have hn : norm3 (0 : V3) = 0 := by simp [norm3]
  have h0 : erOfR (axisAngleMx π e) = 0 := by
    unfold erOfR
    simp only [hax, hn]
    split_ifs with h1 h2
    · rfl
    · rfl
    · exact absurd (by norm_num) h2
  refine ⟨h0, ?_⟩
  rw [h0]
  have : erToR 0 = 1 := by
    ext i j; fin_cases i <;> fin_cases j <;> simp [erToR, crossMx]
  rw [this]
  intro hc
  have a0 := congrFun (congrFun hc 0) 0
  have a1 := congrFun (congrFun hc 1) 1
  have a2 := congrFun (congrFun hc 2) 2
  simp [axisAngleMx] at a0 a1 a2
  unfold Unit3 at he
  nlinarith

example : 1 / 10 ^ 14 ≤ norm3 ![1, 0, 0] ∧ norm3 ![1, 0, 0] ≤ 10 ^ 14 := by
  have : norm3 ![1, 0, 0] = 1 := by simp [norm3]
  rw [this]
  norm_num

end Kalibr.Kin
