import Verif.Kinematics.EulerProps
import Verif.Kinematics.Transform

/-!
# Euler angles and rotation matrices (C82), rates and angular velocity (C83)
-/

namespace Kalibr.Kin

open Matrix Real

set_option linter.unusedSimpArgs false

/-! ## C82 -/

theorem atan2_polar {r a : ℝ} (hr : 0 < r) (h0 : -π < a) (h1 : a ≤ π) : atan2 (r * sin a) (r * cos a) = a := by
  have : (⟨r * cos a, r * sin a⟩ : ℂ) = (r : ℂ) * (Complex.cos a + Complex.sin a * Complex.I) := by
    rw [← Complex.ofReal_cos, ← Complex.ofReal_sin]
    apply Complex.ext <;> simp [-Complex.ofReal_cos, -Complex.ofReal_sin]
  unfold atan2
  rw [this, Complex.arg_mul_cos_add_sin_mul_I hr ⟨h0, h1⟩]

theorem atan2_cos_sin {y x k : ℝ} (hk : 0 < k) (h : x ^ 2 + y ^ 2 = k ^ 2) :
    k * cos (atan2 y x) = x ∧ k * sin (atan2 y x) = y := by
  have hn : ‖(⟨x, y⟩ : ℂ)‖ = k := by
    rw [Complex.norm_def, Complex.normSq_mk, show x * x + y * y = k ^ 2 by linarith, Real.sqrt_sq hk.le]
  have hne : (⟨x, y⟩ : ℂ) ≠ 0 := by
    intro hc
    rw [hc, norm_zero] at hn
    linarith
  unfold atan2
  rw [Complex.cos_arg hne, Complex.sin_arg, hn]
  constructor <;> field_simp

/-- The angles in the range in which they are unique: pitch strictly within a quarter turn, the others within a half
turn. -/
structure InRange (yaw pitch roll : ℝ) : Prop where
  y0 : -π < yaw
  y1 : yaw ≤ π
  p0 : -(π / 2) < pitch
  p1 : pitch < π / 2
  r0 : -π < roll
  r1 : roll ≤ π

/-- Yaw, pitch and roll in range are recovered from the rotation matrix. -/
theorem C82_ypr_angles (p : V3) (h : InRange (p 0) (p 1) (p 2)) : yprOfR (yprToR p) = p := by
  have hc : 0 < cos (p 1) := cos_pos_of_mem_Ioo ⟨h.p0, h.p1⟩
  apply ext3 <;> simp [yprOfR, yprToR]
  · rw [mul_comm, mul_comm (cos (p 0))]; exact atan2_polar hc h.y0 h.y1
  · exact arcsin_sin h.p0.le h.p1.le
  · exact atan2_polar hc h.r0 h.r1

/-- The same for ZYX angles, whose signs are opposite. -/
theorem C82_zyx_angles (p : V3) (h : InRange (-p 0) (-p 1) (-p 2)) : zyxOfR (zyxToR p) = p := by
  have hc : 0 < cos (-p 1) := cos_pos_of_mem_Ioo ⟨h.p0, h.p1⟩
  apply ext3 <;> simp [zyxOfR, zyxToR, -cos_neg, -sin_neg]
  · rw [mul_comm, mul_comm (cos (-p 0)), atan2_polar hc h.y0 h.y1]; ring
  · rw [arcsin_sin h.p0.le h.p1.le]; ring
  · rw [atan2_polar hc h.r0 h.r1]; ring

/-- The same for ZXY angles: yaw about z, roll about x in the middle, pitch about y. -/
theorem C82_zxy_angles (p : V3) (h : InRange (p 0) (p 1) (p 2)) : zxyOfR (zxyToR p) = p := by
  have hc : 0 < cos (p 1) := cos_pos_of_mem_Ioo ⟨h.p0, h.p1⟩
  apply ext3 <;> simp [zxyOfR, zxyToR]
  · rw [mul_comm, mul_comm (cos (p 0))]; exact atan2_polar hc h.y0 h.y1
  · exact arcsin_sin h.p0.le h.p1.le
  · exact atan2_polar hc h.r0 h.r1

/-- The free functions: `R2rph` undoes `rph2R` and `C2rph` undoes `rph2C`. -/
theorem C82_rph_angles (p : V3) (h : InRange (p 2) (p 1) (p 0)) :
    R2rph (rph2R (p 0) (p 1) (p 2)) = p ∧ C2rph (rph2C (p 0) (p 1) (p 2)) = p := by
  have hc : 0 < cos (p 1) := cos_pos_of_mem_Ioo ⟨h.p0, h.p1⟩
  constructor
  · apply ext3 <;> simp [R2rph, rph2R]
    · exact atan2_polar hc h.r0 h.r1
    · rw [arcsin_sin h.p0.le h.p1.le]
    · rw [mul_comm, mul_comm (cos (p 2))]; exact atan2_polar hc h.y0 h.y1
  · apply ext3 <;> simp [C2rph, rph2C, rph2R]
    · exact atan2_polar hc h.r0 h.r1
    · rw [arcsin_sin h.p0.le h.p1.le]
    · rw [mul_comm, mul_comm (cos (p 2))]; exact atan2_polar hc h.y0 h.y1

/-- The length of the first column without its last entry, and of the last row without its first. -/
theorem pitch_k {R : M3} (e : Eqs R) (hg : |R 2 0| ≠ 1) : ∃ k : ℝ, 0 < k ∧ k = √(1 - R 2 0 ^ 2) ∧
    k ^ 2 = 1 - R 2 0 ^ 2 ∧ -1 ≤ R 2 0 ∧ R 2 0 ≤ 1 ∧ R 0 0 ^ 2 + R 1 0 ^ 2 = k ^ 2 ∧ R 2 2 ^ 2 + R 2 1 ^ 2 = k ^ 2 := by
  have hne : R 2 0 ^ 2 ≠ 1 := fun hc => hg (by
    rw [← sq_abs] at hc; nlinarith [abs_nonneg (R 2 0)])
  have hle : R 2 0 ^ 2 < 1 := lt_of_le_of_ne (by nlinarith [e.r2, sq_nonneg (R 2 1), sq_nonneg (R 2 2)]) hne
  have hk : 0 < √(1 - R 2 0 ^ 2) := Real.sqrt_pos.mpr (by linarith)
  have hk2 : √(1 - R 2 0 ^ 2) ^ 2 = 1 - R 2 0 ^ 2 := Real.sq_sqrt (by linarith)
  refine ⟨_, hk, rfl, hk2, by nlinarith, by nlinarith, ?_, ?_⟩
  · rw [hk2]; linarith [e.c0]
  · rw [hk2]; linarith [e.r2]

/-- Every rotation matrix away from gimbal lock is the rotation of its yaw, pitch and roll. -/
theorem C82_ypr_matrix (R : M3) (hR : R ∈ SO3) (hg : |R 2 0| ≠ 1) : yprToR (yprOfR R) = R := by
  have e := SO3.eqs hR
  obtain ⟨k, hk, hks, hk2, hl, hu, h1, h2⟩ := pitch_k e hg
  obtain ⟨c1, s1⟩ := atan2_cos_sin hk h1
  obtain ⟨c2, s2⟩ := atan2_cos_sin hk h2
  have cy : cos (arcsin (-R 2 0)) = k := by rw [cos_arcsin, hks]; congr 1; ring
  have sy : sin (arcsin (-R 2 0)) = -R 2 0 := sin_arcsin (by linarith) (by linarith)
  have k01 := e.k01; have k02 := e.k02; have k11 := e.k11; have k12 := e.k12
  have c01 := e.c01; have c02 := e.c02
  unfold yprToR yprOfR
  simp only [Matrix.cons_val, cy, sy]
  generalize cos (atan2 (R 1 0) (R 0 0)) = a at *
  generalize sin (atan2 (R 1 0) (R 0 0)) = b at *
  generalize cos (atan2 (R 2 1) (R 2 2)) = c at *
  generalize sin (atan2 (R 2 1) (R 2 2)) = d at *
  have hkk : k ^ 2 ≠ 0 := by positivity
  ext i j
  fin_cases i <;> fin_cases j <;> simp
  · linarith
  · apply mul_left_cancel₀ hkk; clear * - hk2 c1 s1 c2 s2 k01 k02 k11 k12; grind
  · apply mul_left_cancel₀ hkk; clear * - hk2 c1 s1 c2 s2 k01 k02 k11 k12; grind
  · linarith
  · apply mul_left_cancel₀ hkk; clear * - hk2 c1 s1 c2 s2 k01 k02 k11 k12; grind
  · apply mul_left_cancel₀ hkk; clear * - hk2 c1 s1 c2 s2 k01 k02 k11 k12; grind
  · linarith
  · linarith

theorem zyx_eq_ypr (p : V3) : zyxToR p = yprToR (-p) := by
  ext i j; fin_cases i <;> fin_cases j <;> simp [zyxToR, yprToR]

theorem zyxOf_eq (R : M3) : zyxOfR R = -yprOfR R := by
  ext i; fin_cases i <;> simp [zyxOfR, yprOfR]

/-- Every rotation matrix away from gimbal lock is the rotation of its ZYX angles. -/
theorem C82_zyx_matrix (R : M3) (hR : R ∈ SO3) (hg : |R 2 0| ≠ 1) : zyxToR (zyxOfR R) = R := by
  rw [zyx_eq_ypr, zyxOf_eq, neg_neg, C82_ypr_matrix R hR hg]

/-- Every rotation matrix away from gimbal lock is the rotation of its roll, pitch and heading. -/
theorem C82_rph_matrix (R : M3) (hR : R ∈ SO3) (hg : |R 2 0| ≠ 1) :
    rph2R (R2rph R 0) (R2rph R 1) (R2rph R 2) = R ∧ rph2C (C2rph R 0) (C2rph R 1) (C2rph R 2) = R := by
  have e := SO3.eqs hR
  have h := C82_ypr_matrix R hR hg
  constructor
  · rw [← h]
    have : yprOfR (yprToR (yprOfR R)) = yprOfR R := by rw [h]
    have hr : R2rph R = ![yprOfR R 2, yprOfR R 1, yprOfR R 0] := by
      apply ext3 <;> simp [R2rph, yprOfR]
    rw [h, hr]
    conv_rhs => rw [← h]
    ext i j; fin_cases i <;> fin_cases j <;> simp [rph2R, yprToR]
  · obtain ⟨k, hk, hks, hk2, hl, hu, h1, h2⟩ := pitch_k e hg
    obtain ⟨c1, s1⟩ := atan2_cos_sin (y := -R 1 0) (x := R 0 0) hk (by rw [neg_sq]; exact h1)
    obtain ⟨c2, s2⟩ := atan2_cos_sin (y := -R 2 1) (x := R 2 2) hk (by rw [neg_sq]; exact h2)
    have cy : cos (arcsin (R 2 0)) = k := by rw [cos_arcsin, hks]
    have sy : sin (arcsin (R 2 0)) = R 2 0 := sin_arcsin (by linarith) (by linarith)
    have k01 := e.k01; have k02 := e.k02; have k11 := e.k11; have k12 := e.k12
    have c01 := e.c01; have c02 := e.c02
    unfold rph2C rph2R C2rph
    simp only [Matrix.cons_val, cos_neg, sin_neg, cy, sy]
    generalize cos (atan2 (-R 1 0) (R 0 0)) = a at *
    generalize sin (atan2 (-R 1 0) (R 0 0)) = b at *
    generalize cos (atan2 (-R 2 1) (R 2 2)) = c at *
    generalize sin (atan2 (-R 2 1) (R 2 2)) = d at *
    have hkk : k ^ 2 ≠ 0 := by positivity
    ext i j
    fin_cases i <;> fin_cases j <;> simp
    · linarith
    · apply mul_left_cancel₀ hkk; clear * - hk2 c1 s1 c2 s2 k01 k02 k11 k12; grind
    · apply mul_left_cancel₀ hkk; clear * - hk2 c1 s1 c2 s2 k01 k02 k11 k12; grind
    · linarith
    · apply mul_left_cancel₀ hkk; clear * - hk2 c1 s1 c2 s2 k01 k02 k11 k12; grind
    · apply mul_left_cancel₀ hkk; clear * - hk2 c1 s1 c2 s2 k01 k02 k11 k12; grind
    · linarith
    · linarith

/-- Every rotation matrix away from its gimbal lock is the rotation of its ZXY angles. -/
theorem C82_zxy_matrix (R : M3) (hR : R ∈ SO3) (hg : |R 2 1| ≠ 1) : zxyToR (zxyOfR R) = R := by
  have e := SO3.eqs hR
  have hne : R 2 1 ^ 2 ≠ 1 := fun hc => hg (by
    rw [← sq_abs] at hc; nlinarith [abs_nonneg (R 2 1)])
  have hle : R 2 1 ^ 2 < 1 := lt_of_le_of_ne (by nlinarith [e.r2, sq_nonneg (R 2 0), sq_nonneg (R 2 2)]) hne
  obtain ⟨k, hks⟩ : ∃ k, k = √(1 - R 2 1 ^ 2) := ⟨_, rfl⟩
  have hk : 0 < k := by rw [hks]; exact Real.sqrt_pos.mpr (by linarith)
  have hk2 : k ^ 2 = 1 - R 2 1 ^ 2 := by rw [hks]; exact Real.sq_sqrt (by linarith)
  obtain ⟨c1, s1⟩ := atan2_cos_sin (y := -R 0 1) (x := R 1 1) hk (by rw [hk2]; linarith [e.c1])
  obtain ⟨c2, s2⟩ := atan2_cos_sin (y := -R 2 0) (x := R 2 2) hk (by rw [hk2]; linarith [e.r2])
  have cy : cos (arcsin (R 2 1)) = k := by rw [cos_arcsin, hks]
  have sy : sin (arcsin (R 2 1)) = R 2 1 := sin_arcsin (by nlinarith) (by nlinarith)
  have k00 := e.k00; have k02 := e.k02; have k10 := e.k10; have k12 := e.k12
  have c01 := e.c01; have c12 := e.c12
  unfold zxyToR zxyOfR
  simp only [Matrix.cons_val, cy, sy]
  generalize cos (atan2 (-R 0 1) (R 1 1)) = a at *
  generalize sin (atan2 (-R 0 1) (R 1 1)) = b at *
  generalize cos (atan2 (-R 2 0) (R 2 2)) = c at *
  generalize sin (atan2 (-R 2 0) (R 2 2)) = d at *
  have hkk : k ^ 2 ≠ 0 := by positivity
  ext i j
  fin_cases i <;> fin_cases j <;> simp
  · apply mul_left_cancel₀ hkk; clear * - hk2 c1 s1 c2 s2 k00 k02 k10 k12; grind
  · linarith
  · apply mul_left_cancel₀ hkk; clear * - hk2 c1 s1 c2 s2 k00 k02 k10 k12; grind
  · apply mul_left_cancel₀ hkk; clear * - hk2 c1 s1 c2 s2 k00 k02 k10 k12; grind
  · linarith
  · apply mul_left_cancel₀ hkk; clear * - hk2 c1 s1 c2 s2 k00 k02 k10 k12; grind
  · linarith
  · linarith

/-- All these matrices are proper rotations. -/
theorem C82_rotations (p : V3) : yprToR p ∈ SO3 ∧ zyxToR p ∈ SO3 ∧ zxyToR p ∈ SO3 := by
  have gen (p : V3) : yprToR p ∈ SO3 := by
    have z1 := sin_sq_add_cos_sq (p 0); have y1 := sin_sq_add_cos_sq (p 1); have x1 := sin_sq_add_cos_sq (p 2)
    rw [Matrix.mem_specialOrthogonalGroup_iff, Matrix.mem_orthogonalGroup_iff]
    constructor
    · ext i j
      fin_cases i <;> fin_cases j <;> simp [yprToR, Matrix.mul_apply, Fin.sum_univ_three, Matrix.star_apply, Matrix.one_apply] <;> grind
    · simp [yprToR, Matrix.det_fin_three]; grind
  refine ⟨gen p, by rw [zyx_eq_ypr]; exact gen _, ?_⟩
  have z1 := sin_sq_add_cos_sq (p 0); have y1 := sin_sq_add_cos_sq (p 1); have x1 := sin_sq_add_cos_sq (p 2)
  rw [Matrix.mem_specialOrthogonalGroup_iff, Matrix.mem_orthogonalGroup_iff]
  constructor
  · ext i j
    fin_cases i <;> fin_cases j <;> simp [zxyToR, Matrix.mul_apply, Fin.sum_univ_three, Matrix.star_apply, Matrix.one_apply] <;> grind
  · simp [zxyToR, Matrix.det_fin_three]; grind

/-- In gimbal lock the rotation is lost: both other angles come back as zero although the matrix needs their
difference. -/
theorem C82_gimbal_lock_counterexample :
    ∃ R ∈ SO3, yprToR (yprOfR R) ≠ R ∧ zyxToR (zyxOfR R) ≠ R := by
  have h20 : yprToR ![π / 2, π / 2, 0] = !![0, -1, 0; 0, 0, 1; -1, 0, 0] := by
    ext i j; fin_cases i <;> fin_cases j <;> simp [yprToR]
  have hof : yprOfR !![0, -1, 0; 0, 0, 1; -1, 0, 0] = ![0, π / 2, 0] := by
    have hz : atan2 0 0 = 0 := by
      unfold atan2
      have : (⟨0, 0⟩ : ℂ) = 0 := rfl
      rw [this, Complex.arg_zero]
    apply ext3 <;> simp [yprOfR, hz]
  have hne : yprToR ![0, π / 2, 0] ≠ !![0, -1, 0; 0, 0, 1; -1, 0, 0] := by
    intro hc
    have := congrFun (congrFun hc 0) 1
    simp [yprToR] at this
  refine ⟨_, (C82_rotations ![π / 2, π / 2, 0]).1, ?_⟩
  rw [h20, zyx_eq_ypr, zyxOf_eq, neg_neg, hof]
  exact ⟨hne, hne⟩

example : InRange 3 1 (-3) := by
  have := pi_gt_three
  exact ⟨by linarith, by linarith, by linarith, by linarith, by linarith, by linarith⟩

example : (!![0, -1, 0; 1, 0, 0; 0, 0, 1] : M3) ∈ SO3 ∧ |(!![0, -1, 0; 1, 0, 0; 0, 0, 1] : M3) 2 0| ≠ 1 ∧
    |(!![0, -1, 0; 1, 0, 0; 0, 0, 1] : M3) 2 1| ≠ 1 := by
  refine ⟨?_, by simp, by simp⟩
  rw [Matrix.mem_specialOrthogonalGroup_iff, Matrix.mem_orthogonalGroup_iff]
  constructor
  · ext i j
    fin_cases i <;> fin_cases j <;> simp [Matrix.mul_apply, Fin.sum_univ_three, Matrix.star_apply]
  · simp [Matrix.det_fin_three]

end Kalibr.Kin
