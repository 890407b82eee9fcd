import Verif.Align.Model
import Verif.Kinematics.R2Quat
import Verif.Tactics

/-!
# The fitted transformation is the best one (C170)
-/

namespace Kalibr.Align

open Matrix Kin

variable {K : ℕ}

theorem orth_entry {Z : M3} (h : Zᵀ * Z = 1) (i j : Fin 3) : |Z i j| ≤ 1 := by
  have e : (Zᵀ * Z) j j = 1 := by rw [h]; simp
  rw [Matrix.mul_apply, Fin.sum_univ_three] at e
  simp only [transpose_apply] at e
  rw [abs_le_one_iff_mul_self_le_one]
  fin_cases i <;> simp <;> nlinarith [mul_self_nonneg (Z 0 j), mul_self_nonneg (Z 1 j), mul_self_nonneg (Z 2 j)]

theorem orth_det {Z : M3} (h : Zᵀ * Z = 1) : Z.det = 1 ∨ Z.det = -1 := by
  have e : (Zᵀ * Z).det = 1 := by rw [h]; simp
  rw [det_mul, det_transpose] at e
  have : (Z.det - 1) * (Z.det + 1) = 0 := by linear_combination e
  rcases mul_eq_zero.mp this with h | h
  · left; linarith
  · right; linarith

theorem trace_rot {R : M3} (h : R ∈ SO3) : -1 ≤ R 0 0 + R 1 1 + R 2 2 := by
  have := sd_nonneg (SO3.eqs h) 3
  simp [sd] at this
  linarith

theorem mem_SO3 {Z : M3} (h : Zᵀ * Z = 1) (hd : Z.det = 1) : Z ∈ SO3 :=
  Matrix.mem_specialOrthogonalGroup_iff.mpr ⟨(Matrix.mem_orthogonalGroup_iff' _ _).mpr h, hd⟩

theorem SO3_orth {C : M3} (h : C ∈ SO3) : Cᵀ * C = 1 ∧ C * Cᵀ = 1 ∧ C.det = 1 := by
  obtain ⟨h1, hd⟩ := Matrix.mem_specialOrthogonalGroup_iff.mp h
  exact ⟨(Matrix.mem_orthogonalGroup_iff' _ _).mp h1, (Matrix.mem_orthogonalGroup_iff _ _).mp h1, hd⟩

theorem trace_reflection {Z : M3} (h : Zᵀ * Z = 1) (hd : Z.det = -1) : Z 0 0 + Z 1 1 + Z 2 2 ≤ 1 := by
  have h1 : (-Z)ᵀ * (-Z) = 1 := by simpa using h
  have h2 : (-Z).det = 1 := by rw [det_neg]; simp [hd]; norm_num
  have := trace_rot (mem_SO3 h1 h2)
  simp at this
  linarith

theorem trace_diag (Z : M3) (s : V3) : (Z * diagonal s).trace = Z 0 0 * s 0 + Z 1 1 * s 1 + Z 2 2 * s 2 := by
  simp [Matrix.trace, Fin.sum_univ_three, Matrix.mul_diagonal]

theorem bound_pos {Z : M3} {s : V3} (h : Zᵀ * Z = 1) (h0 : s 1 ≤ s 0) (h1 : s 2 ≤ s 1) (h2 : 0 ≤ s 2) :
    (Z * diagonal s).trace ≤ s 0 + s 1 + s 2 := by
  rw [trace_diag]
  have a := (abs_le.mp (orth_entry h 0 0)).2
  have b := (abs_le.mp (orth_entry h 1 1)).2
  have c := (abs_le.mp (orth_entry h 2 2)).2
  nlinarith

theorem bound_neg {Z : M3} {s : V3} (h : Zᵀ * Z = 1) (hd : Z.det = -1) (h0 : s 1 ≤ s 0) (h1 : s 2 ≤ s 1) (h2 : 0 ≤ s 2) :
    (Z * diagonal s).trace ≤ s 0 + s 1 - s 2 := by
  rw [trace_diag]
  have a := (abs_le.mp (orth_entry h 0 0)).2
  have b := (abs_le.mp (orth_entry h 1 1)).2
  have c := trace_reflection h hd
  have e : Z 0 0 * s 0 + Z 1 1 * s 1 + Z 2 2 * s 2 =
      (Z 0 0 + Z 1 1 + Z 2 2) * s 2 + Z 0 0 * (s 0 - s 2) + Z 1 1 * (s 1 - s 2) := by ring
  rw [e]
  have e1 := mul_le_mul_of_nonneg_right c h2
  have e2 := mul_le_mul_of_nonneg_right a (by linarith : 0 ≤ s 0 - s 2)
  have e3 := mul_le_mul_of_nonneg_right b (by linarith : 0 ≤ s 1 - s 2)
  linarith

/-- The matrix that changes the sign of the last column. -/
def F : M3 := diagonal ![1, 1, -1]

theorem flip_eq (V : M3) : flipCol2 V = V * F := by
  ext i j
  fin_cases j <;> simp [flipCol2, F, Matrix.mul_diagonal]

theorem F_sq : Fᵀ * F = 1 := by
  ext i j
  fin_cases i <;> fin_cases j <;> simp [F]

theorem F_det : F.det = -1 := by simp [F, det_diagonal, Fin.prod_univ_three]

/-- The rotation from the decomposition is a rotation, and no other has a larger trace with `H`. -/
theorem rotOfSvd_best {H : M3} {d : Svd} (h : IsSvd H d) : rotOfSvd d ∈ SO3 ∧
    ∀ C : M3, C ∈ SO3 → (Cᵀ * H).trace ≤ (rotOfSvd d * H).trace := by
  have uu : d.U * d.Uᵀ = 1 := mul_eq_one_comm.mp h.u
  have vv : d.V * d.Vᵀ = 1 := mul_eq_one_comm.mp h.v
  have key (M : M3) : (M * H).trace = (d.Vᵀ * M * d.U * diagonal d.s).trace := by
    rw [h.eq, ← Matrix.mul_assoc, Matrix.trace_mul_comm]
    simp only [Matrix.mul_assoc]
  have orth (C : M3) (hC : C ∈ SO3) : (d.Vᵀ * Cᵀ * d.U)ᵀ * (d.Vᵀ * Cᵀ * d.U) = 1 := by
    obtain ⟨a, b, _⟩ := SO3_orth hC
    calc (d.Vᵀ * Cᵀ * d.U)ᵀ * (d.Vᵀ * Cᵀ * d.U) = d.Uᵀ * (C * ((d.V * d.Vᵀ) * Cᵀ)) * d.U := by
          simp only [transpose_mul, transpose_transpose, Matrix.mul_assoc]
      _ = 1 := by rw [vv, Matrix.one_mul, b, Matrix.mul_one, h.u]
  have dets (C : M3) (hC : C ∈ SO3) : (d.Vᵀ * Cᵀ * d.U).det = d.V.det * d.U.det := by
    rw [det_mul, det_mul, det_transpose, det_transpose, (SO3_orth hC).2.2]; ring
  have dd : (d.V * d.Uᵀ).det = d.V.det * d.U.det := by rw [det_mul, det_transpose]
  rcases orth_det h.u with hu | hu <;> rcases orth_det h.v with hv | hv
  all_goals
    unfold rotOfSvd
    simp only [dd, hu, hv]
  case inl.inl =>
    rw [if_neg (by norm_num)]
    refine ⟨mem_SO3 ?_ (by rw [dd, hu, hv]; norm_num), fun C hC => ?_⟩
    · calc (d.V * d.Uᵀ)ᵀ * (d.V * d.Uᵀ) = d.U * ((d.Vᵀ * d.V) * d.Uᵀ) := by
            simp only [transpose_mul, transpose_transpose, Matrix.mul_assoc]
        _ = 1 := by rw [h.v, Matrix.one_mul, uu]
    · rw [key, key]
      refine (bound_pos (orth C hC) h.s01 h.s12 h.s2).trans ?_
      have : d.Vᵀ * (d.V * d.Uᵀ) * d.U = 1 := by
        rw [← Matrix.mul_assoc, h.v, Matrix.one_mul, h.u]
      rw [this, trace_diag]; simp
  case inr.inr =>
    rw [if_neg (by norm_num)]
    refine ⟨mem_SO3 ?_ (by rw [dd, hu, hv]; norm_num), fun C hC => ?_⟩
    · calc (d.V * d.Uᵀ)ᵀ * (d.V * d.Uᵀ) = d.U * ((d.Vᵀ * d.V) * d.Uᵀ) := by
            simp only [transpose_mul, transpose_transpose, Matrix.mul_assoc]
        _ = 1 := by rw [h.v, Matrix.one_mul, uu]
    · rw [key, key]
      refine (bound_pos (orth C hC) h.s01 h.s12 h.s2).trans ?_
      have : d.Vᵀ * (d.V * d.Uᵀ) * d.U = 1 := by
        rw [← Matrix.mul_assoc, h.v, Matrix.one_mul, h.u]
      rw [this, trace_diag]; simp
  all_goals
    rw [if_pos (by norm_num), flip_eq]
    refine ⟨mem_SO3 ?_ (by rw [det_mul, det_mul, det_transpose, F_det, hu, hv]; norm_num), fun C hC => ?_⟩
    · calc (d.V * F * d.Uᵀ)ᵀ * (d.V * F * d.Uᵀ) = d.U * (Fᵀ * ((d.Vᵀ * d.V) * F) * d.Uᵀ) := by
            simp only [transpose_mul, transpose_transpose, Matrix.mul_assoc]
        _ = 1 := by rw [h.v, Matrix.one_mul, F_sq, Matrix.one_mul, uu]
    · rw [key, key]
      refine (bound_neg (orth C hC) (by rw [dets C hC, hu, hv]; norm_num) h.s01 h.s12 h.s2).trans ?_
      have : d.Vᵀ * (d.V * F * d.Uᵀ) * d.U = F := by
        calc d.Vᵀ * (d.V * F * d.Uᵀ) * d.U = (d.Vᵀ * d.V) * (F * (d.Uᵀ * d.U)) := by
              simp only [Matrix.mul_assoc]
          _ = F := by rw [h.v, h.u, Matrix.one_mul, Matrix.mul_one]
      rw [this, trace_diag]; simp [F]

theorem dist2_eq (a b : V3) : dist2 a b = (a - b) ⬝ᵥ (a - b) := by
  simp [dist2, dotProduct, Fin.sum_univ_three]; ring

theorem dot_self_nonneg (a : V3) : 0 ≤ a ⬝ᵥ a := by
  simp [dotProduct, Fin.sum_univ_three]
  nlinarith [mul_self_nonneg (a 0), mul_self_nonneg (a 1), mul_self_nonneg (a 2)]

theorem transform_tfm (C : M3) (t p : V3) : transform (tfm C t) p = C.mulVec p + t := by
  ext i
  fin_cases i <;> simp [transform, tfm, Matrix.mulVec, dotProduct, Fin.sum_univ_three]

theorem rot_dot {C : M3} (h : C ∈ SO3) (a b : V3) : C.mulVec a ⬝ᵥ C.mulVec b = a ⬝ᵥ b := by
  rw [Matrix.dotProduct_mulVec, Matrix.vecMul_mulVec, (SO3_orth h).1, Matrix.vecMul_one]

theorem sum_centred (hK : 0 < K) (p : Fin K → V3) : ∑ i, (p i - mean p) = 0 := by
  rw [Finset.sum_sub_distrib, Finset.sum_const, Finset.card_univ, Fintype.card_fin, mean, ← Nat.cast_smul_eq_nsmul ℝ,
    smul_smul, mul_inv_cancel₀ (by exact_mod_cast hK.ne'), one_smul, sub_self]

theorem dot_vecMulVec (C : M3) (a b : V3) : a ⬝ᵥ C.mulVec b = (Cᵀ * vecMulVec a b).trace := by
  simp [Matrix.trace, Matrix.mul_apply, vecMulVec_apply, Fin.sum_univ_three, dotProduct, Matrix.mulVec]
  ring

theorem dot_crossCov (C : M3) (p0 p1 : Fin K → V3) :
    ∑ i, (p0 i - mean p0) ⬝ᵥ C.mulVec (p1 i - mean p1) = (Cᵀ * crossCov p0 p1).trace := by
  rw [crossCov, Matrix.mul_sum, Matrix.trace_sum]
  exact Finset.sum_congr rfl fun i _ => dot_vecMulVec C _ _

/-- The sum of the squares of the errors, split in a part for the translation and a part for the rotation. -/
theorem cost_eq (hK : 0 < K) (p0 p1 : Fin K → V3) {C : M3} (hC : C ∈ SO3) (t : V3) :
    ∑ i, dist2 (p0 i) (transform (tfm C t) (p1 i)) =
      ∑ i, ((p0 i - mean p0) ⬝ᵥ (p0 i - mean p0) + (p1 i - mean p1) ⬝ᵥ (p1 i - mean p1)) -
        2 * (Cᵀ * crossCov p0 p1).trace +
        K * ((mean p0 - C.mulVec (mean p1) - t) ⬝ᵥ (mean p0 - C.mulVec (mean p1) - t)) := by
  set d := mean p0 - C.mulVec (mean p1) - t with hd
  have e (i : Fin K) : dist2 (p0 i) (transform (tfm C t) (p1 i)) =
      ((p0 i - mean p0) ⬝ᵥ (p0 i - mean p0) + (p1 i - mean p1) ⬝ᵥ (p1 i - mean p1)) -
        2 * ((p0 i - mean p0) ⬝ᵥ C.mulVec (p1 i - mean p1)) +
        2 * (((p0 i - mean p0) - C.mulVec (p1 i - mean p1)) ⬝ᵥ d) + d ⬝ᵥ d := by
    rw [dist2_eq, transform_tfm]
    have : p0 i - (C.mulVec (p1 i) + t) = (p0 i - mean p0) - C.mulVec (p1 i - mean p1) + d := by
      rw [hd, Matrix.mulVec_sub]; abel
    rw [this]
    generalize p0 i - mean p0 = a
    generalize p1 i - mean p1 = b
    rw [← rot_dot hC b b]
    generalize C.mulVec b = b'
    simp [dotProduct, Fin.sum_univ_three]; ring
  have z : ∑ i, ((p0 i - mean p0) - C.mulVec (p1 i - mean p1)) = 0 := by
    rw [Finset.sum_sub_distrib, sum_centred hK, ← Matrix.mulVec_sum, sum_centred hK]; simp
  rw [Finset.sum_congr rfl fun i _ => e i, Finset.sum_add_distrib, Finset.sum_add_distrib,
    Finset.sum_sub_distrib, ← Finset.mul_sum, ← Finset.mul_sum, ← dot_crossCov, ← sum_dotProduct, z]
  simp

theorem SO3_transpose {C : M3} (h : C ∈ SO3) : Cᵀ ∈ SO3 := by
  obtain ⟨_, b, c⟩ := SO3_orth h
  exact mem_SO3 (by rw [transpose_transpose, b]) (by rw [det_transpose, c])

/-- For every set of matched points with at least one point, and whatever decomposition Eigen returns: the
transformation is rigid, and no rigid transformation brings the points of frame one closer to those of frame
zero, in the sum of the squares of the distances. -/
theorem C170_best_transformation (svd : M3 → Svd) (p0 p1 : Fin K → V3) (hK : 0 < K)
    (h : IsSvd (crossCov p0 p1) (svd (crossCov p0 p1))) :
    Rigid (threePointSvd svd p0 p1) ∧ ∀ T : M4, Rigid T →
      ∑ i, dist2 (p0 i) (transform (threePointSvd svd p0 p1) (p1 i)) ≤ ∑ i, dist2 (p0 i) (transform T (p1 i)) := by
  obtain ⟨hR, hb⟩ := rotOfSvd_best h
  refine ⟨⟨_, _, SO3_transpose hR, rfl⟩, ?_⟩
  rintro T ⟨C, t, hC, rfl⟩
  rw [cost_eq hK p0 p1 hC t]
  unfold threePointSvd
  simp only
  rw [cost_eq hK p0 p1 (SO3_transpose hR)]
  have a := hb C hC
  have b : 0 ≤ (K : ℝ) * ((mean p0 - C.mulVec (mean p1) - t) ⬝ᵥ (mean p0 - C.mulVec (mean p1) - t)) :=
    mul_nonneg (Nat.cast_nonneg _) (dot_self_nonneg _)
  rw [transpose_transpose, sub_self, zero_dotProduct, mul_zero]
  linarith

theorem dist2_zero {a b : V3} : dist2 a b = 0 ↔ a = b := by
  constructor
  · intro h
    unfold dist2 at h
    have h0 : a 0 = b 0 := by nlinarith [sq_nonneg (a 0 - b 0), sq_nonneg (a 1 - b 1), sq_nonneg (a 2 - b 2)]
    have h1 : a 1 = b 1 := by nlinarith [sq_nonneg (a 0 - b 0), sq_nonneg (a 1 - b 1), sq_nonneg (a 2 - b 2)]
    have h2 : a 2 = b 2 := by nlinarith [sq_nonneg (a 0 - b 0), sq_nonneg (a 1 - b 1), sq_nonneg (a 2 - b 2)]
    ext i; fin_cases i <;> assumption
  · rintro rfl; simp [dist2]

theorem dist2_nonneg (a b : V3) : 0 ≤ dist2 a b := by unfold dist2; positivity

/-- A rotation keeps the cross product. -/
theorem rot_cross {C : M3} (h : C ∈ SO3) (a b : V3) :
    C.mulVec (crossProduct a b) = crossProduct (C.mulVec a) (C.mulVec b) := by
  have e := SO3.eqs h
  have k00 := e.k00; have k01 := e.k01; have k02 := e.k02; have k10 := e.k10; have k11 := e.k11
  have k12 := e.k12; have k20 := e.k20; have k21 := e.k21; have k22 := e.k22
  ext i
  fin_cases i <;> simp [cross_apply, Matrix.mulVec, dotProduct, Fin.sum_univ_three]
  · linear_combination (a 1 * b 2 - a 2 * b 1) * (-k00) + (a 2 * b 0 - a 0 * b 2) * (-k01) + (a 0 * b 1 - a 1 * b 0) * (-k02)
  · linear_combination (a 1 * b 2 - a 2 * b 1) * (-k10) + (a 2 * b 0 - a 0 * b 2) * (-k11) + (a 0 * b 1 - a 1 * b 0) * (-k12)
  · linear_combination (a 1 * b 2 - a 2 * b 1) * (-k20) + (a 2 * b 0 - a 0 * b 2) * (-k21) + (a 0 * b 1 - a 1 * b 0) * (-k22)

/-- Two rotations that agree on two vectors that are not parallel are the same. -/
theorem rot_unique {C D : M3} (hC : C ∈ SO3) (hD : D ∈ SO3) {a b : V3} (hab : crossProduct a b ≠ 0)
    (ha : C.mulVec a = D.mulVec a) (hb : C.mulVec b = D.mulVec b) : C = D := by
  have hc : C.mulVec (crossProduct a b) = D.mulVec (crossProduct a b) := by rw [rot_cross hC, rot_cross hD, ha, hb]
  set n := crossProduct a b with hn
  let P : M3 := of fun i j => ![a i, b i, n i] j
  have hP : C * P = D * P := by
    ext i j
    have ea := congrFun ha i
    have eb := congrFun hb i
    have ec := congrFun hc i
    simp only [Matrix.mulVec, dotProduct, Fin.sum_univ_three] at ea eb ec
    fin_cases j <;> simp [Matrix.mul_apply, Fin.sum_univ_three, P] <;> assumption
  have hdet : P.det = n ⬝ᵥ n := by
    rw [Matrix.det_fin_three]
    simp [P, hn, cross_apply, dotProduct, Fin.sum_univ_three]; ring
  have hne : P.det ≠ 0 := by
    rw [hdet]
    intro h0
    apply hab
    have : dist2 n 0 = 0 := by rw [dist2_eq, sub_zero]; exact h0
    exact dist2_zero.mp this
  have hu : IsUnit P.det := isUnit_iff_ne_zero.mpr hne
  calc C = C * P * P⁻¹ := by rw [Matrix.mul_assoc, Matrix.mul_nonsing_inv _ hu, Matrix.mul_one]
    _ = D := by rw [hP, Matrix.mul_assoc, Matrix.mul_nonsing_inv _ hu, Matrix.mul_one]

/-- If the points of frame zero are those of frame one, moved by a rigid transformation, every point is mapped
exactly; and if three of them are not on one line, the result is that transformation. -/
theorem C170_recovers_transformation (svd : M3 → Svd) (p0 p1 : Fin K → V3)
    (h : IsSvd (crossCov p0 p1) (svd (crossCov p0 p1))) (T : M4) (hT : Rigid T)
    (hp : ∀ i, p0 i = transform T (p1 i)) :
    (∀ i, transform (threePointSvd svd p0 p1) (p1 i) = p0 i) ∧
    ((∃ i j k, NotCollinear (p1 i) (p1 j) (p1 k)) → threePointSvd svd p0 p1 = T) := by
  have exact1 : ∀ i, transform (threePointSvd svd p0 p1) (p1 i) = p0 i := by
    intro i
    have hK : 0 < K := i.pos
    have h1 := (C170_best_transformation svd p0 p1 hK h).2 T hT
    have h0 : ∑ i, dist2 (p0 i) (transform T (p1 i)) = 0 :=
      Finset.sum_eq_zero fun i _ => dist2_zero.mpr (hp i)
    have h2 : ∑ i, dist2 (p0 i) (transform (threePointSvd svd p0 p1) (p1 i)) = 0 :=
      le_antisymm (by linarith) (Finset.sum_nonneg fun i _ => dist2_nonneg _ _)
    have := (Finset.sum_eq_zero_iff_of_nonneg fun i _ => dist2_nonneg _ _).mp h2 i (Finset.mem_univ i)
    exact (dist2_zero.mp this).symm
  refine ⟨exact1, ?_⟩
  rintro ⟨i, j, k, hn⟩
  obtain ⟨⟨D, u, hD, hDu⟩, -⟩ := C170_best_transformation svd p0 p1 i.pos h
  obtain ⟨C, t, hC, rfl⟩ := hT
  have e (l : Fin K) : D.mulVec (p1 l) + u = C.mulVec (p1 l) + t := by
    rw [← transform_tfm, ← transform_tfm, ← hDu, exact1, hp]
  have hDC : D = C := by
    refine rot_unique hD hC hn ?_ ?_
    · rw [Matrix.mulVec_sub, Matrix.mulVec_sub]
      have a := e j; have b := e i
      calc D.mulVec (p1 j) - D.mulVec (p1 i) = (D.mulVec (p1 j) + u) - (D.mulVec (p1 i) + u) := by abel
        _ = _ := by rw [a, b]; abel
    · rw [Matrix.mulVec_sub, Matrix.mulVec_sub]
      have a := e k; have b := e i
      calc D.mulVec (p1 k) - D.mulVec (p1 i) = (D.mulVec (p1 k) + u) - (D.mulVec (p1 i) + u) := by abel
        _ = _ := by rw [a, b]; abel
  rw [hDu, hDC]
  have := e i
  rw [hDC] at this
  rw [add_left_cancel this]

/-! ## The method of Davenport -/

theorem davenportRot_eq (q : V4) : davenportRot q = quat2r q := by
  ext i j
  fin_cases i <;> fin_cases j <;>
    simp [davenportRot, quat2r, crossMx, vecMulVec_apply, dotProduct, Fin.sum_univ_three] <;> ring

theorem profile_eq (p0 p1 : Fin K → V3) (w : Fin K → ℝ) (hw : ∀ i, 0 ≤ w i) :
    profile p0 p1 w = ∑ i, w i • vecMulVec (p0 i) (p1 i) := by
  unfold profile
  refine Finset.sum_congr rfl fun i _ => ?_
  ext r c
  simp only [vecMulVec_apply, Pi.smul_apply, smul_eq_mul, Matrix.smul_apply]
  have := Real.mul_self_sqrt (hw i)
  linear_combination p0 i r * p1 i c * this

/-- The quadratic form of the matrix is the trace of the rotation with the profile. -/
theorem davenport_form (B : M3) (q : V4) : q ⬝ᵥ (davenport B).mulVec q = ((quat2r q)ᵀ * B).trace := by
  simp [davenport, quat2r, Matrix.mulVec, dotProduct, Fin.sum_univ_succ, Matrix.trace, Matrix.mul_apply]
  ring

theorem dot4 (q : V4) : q ⬝ᵥ q = q 0 ^ 2 + q 1 ^ 2 + q 2 ^ 2 + q 3 ^ 2 := by
  simp [dotProduct, Fin.sum_univ_succ]; ring

theorem rayleigh {M : M4} {e : Eig} (h : IsEigen M e) (q : V4) (hq : q ⬝ᵥ q = 1) :
    q ⬝ᵥ M.mulVec q ≤ e.values (argmax e.values) := by
  have hv : e.vectors * e.vectorsᵀ = 1 := mul_eq_one_comm.mp h.ortho
  obtain ⟨c, rfl⟩ : ∃ c, q = e.vectors.mulVec c :=
    ⟨e.vectorsᵀ.mulVec q, by rw [Matrix.mulVec_mulVec, hv, Matrix.one_mulVec]⟩
  have hcc : c ⬝ᵥ c = 1 := by
    rw [← hq, Matrix.dotProduct_mulVec, Matrix.vecMul_mulVec, h.ortho, Matrix.vecMul_one]
  have e1 : e.vectors.mulVec c ⬝ᵥ M.mulVec (e.vectors.mulVec c) = ∑ j, e.values j * (c j * c j) := by
    rw [Matrix.mulVec_mulVec, h.eq, ← Matrix.mulVec_mulVec, Matrix.dotProduct_mulVec, Matrix.vecMul_mulVec, h.ortho,
      Matrix.vecMul_one]
    simp only [dotProduct, Matrix.mulVec_diagonal]
    exact Finset.sum_congr rfl fun j _ => by ring
  rw [e1]
  calc ∑ j, e.values j * (c j * c j) ≤ ∑ j, e.values (argmax e.values) * (c j * c j) :=
        Finset.sum_le_sum fun j _ => mul_le_mul_of_nonneg_right (argmax_spec _ _) (mul_self_nonneg _)
    _ = e.values (argmax e.values) * (c ⬝ᵥ c) := by rw [← Finset.mul_sum]; rfl
    _ = _ := by rw [hcc, mul_one]

theorem weighted_cost (p0 p1 : Fin K → V3) (w : Fin K → ℝ) (hw : ∀ i, 0 ≤ w i) {C : M3} (hC : C ∈ SO3) :
    ∑ i, w i * dist2 (p0 i) (C.mulVec (p1 i)) =
      ∑ i, w i * (p0 i ⬝ᵥ p0 i + p1 i ⬝ᵥ p1 i) - 2 * (Cᵀ * profile p0 p1 w).trace := by
  rw [profile_eq _ _ _ hw, Matrix.mul_sum, Matrix.trace_sum, Finset.mul_sum, ← Finset.sum_sub_distrib]
  refine Finset.sum_congr rfl fun i _ => ?_
  rw [Matrix.mul_smul, Matrix.trace_smul, ← dot_vecMulVec, dist2_eq, ← rot_dot hC (p1 i) (p1 i)]
  simp [dotProduct, Fin.sum_univ_three]; ring

/-- For every set of matched vectors and every weights that are not negative, and whatever decomposition Eigen
returns: the result is a proper rotation, and no proper rotation has a smaller weighted sum of the squares of the
distances. -/
theorem C170_best_rotation (eig : M4 → Eig) (p0 p1 : Fin K → V3) (w : Fin K → ℝ) (hw : ∀ i, 0 ≤ w i)
    (h : IsEigen (davenport (profile p0 p1 w)) (eig (davenport (profile p0 p1 w)))) :
    qMethod eig p0 p1 w ∈ SO3 ∧ ∀ C : M3, C ∈ SO3 →
      ∑ i, w i * dist2 (p0 i) ((qMethod eig p0 p1 w).mulVec (p1 i)) ≤ ∑ i, w i * dist2 (p0 i) (C.mulVec (p1 i)) := by
  unfold qMethod
  simp only
  set e := eig (davenport (profile p0 p1 w)) with he
  set m := argmax e.values with hm
  set q : V4 := fun i => e.vectors i m with hq
  have hu : q ⬝ᵥ q = 1 := by
    have : (e.vectorsᵀ * e.vectors) m m = 1 := by rw [h.ortho]; simp
    rw [Matrix.mul_apply] at this
    exact this
  have hn : norm4 q = 1 := by rw [norm4, ← dot4, hu, Real.sqrt_one]
  rw [hn, inv_one, one_smul, davenportRot_eq]
  have hq4 : Unit4 q := by unfold Unit4; rw [← dot4, hu]
  have hR := C48_unit_gives_rotation q hq4
  refine ⟨hR, fun C hC => ?_⟩
  rw [weighted_cost p0 p1 w hw hR, weighted_cost p0 p1 w hw hC]
  obtain ⟨r1, r2, -⟩ := C49_round_trip C hC
  have top : ((quat2r q)ᵀ * profile p0 p1 w).trace = e.values m := by
    rw [← davenport_form]
    have : (davenport (profile p0 p1 w)).mulVec q = e.values m • q := by
      ext i
      have := congrFun (congrFun h.eq i) m
      rw [Matrix.mul_apply, Matrix.mul_diagonal] at this
      simp only [Matrix.mulVec, dotProduct, Pi.smul_apply, smul_eq_mul, hq]
      rw [this]; ring
    rw [this, dotProduct_smul, hu, smul_eq_mul, mul_one]
  have other : (Cᵀ * profile p0 p1 w).trace ≤ e.values m := by
    conv_lhs => rw [← r1]
    rw [← davenport_form]
    refine rayleigh h _ ?_
    rw [dot4]; exact r2
  rw [top]
  linarith

/-- If the vectors of frame zero are those of frame one, turned by a rotation, and the weights are positive, every
vector is mapped exactly; and if two of them are not parallel, the result is that rotation. -/
theorem C170_recovers_rotation (eig : M4 → Eig) (p0 p1 : Fin K → V3) (w : Fin K → ℝ) (hw : ∀ i, 0 < w i)
    (h : IsEigen (davenport (profile p0 p1 w)) (eig (davenport (profile p0 p1 w)))) (C : M3) (hC : C ∈ SO3)
    (hp : ∀ i, p0 i = C.mulVec (p1 i)) :
    (∀ i, (qMethod eig p0 p1 w).mulVec (p1 i) = p0 i) ∧
    ((∃ i j, crossProduct (p1 i) (p1 j) ≠ 0) → qMethod eig p0 p1 w = C) := by
  obtain ⟨hR, hb⟩ := C170_best_rotation eig p0 p1 w (fun i => (hw i).le) h
  have h1 := hb C hC
  have h0 : ∑ i, w i * dist2 (p0 i) (C.mulVec (p1 i)) = 0 :=
    Finset.sum_eq_zero fun i _ => by rw [dist2_zero.mpr (hp i), mul_zero]
  have nn (i : Fin K) : 0 ≤ w i * dist2 (p0 i) ((qMethod eig p0 p1 w).mulVec (p1 i)) :=
    mul_nonneg (hw i).le (dist2_nonneg _ _)
  have h2 := le_antisymm (h1.trans_eq h0) (Finset.sum_nonneg fun i _ => nn i)
  have exact1 (i : Fin K) : (qMethod eig p0 p1 w).mulVec (p1 i) = p0 i := by
    have := (Finset.sum_eq_zero_iff_of_nonneg fun i _ => nn i).mp h2 i (Finset.mem_univ i)
    rcases mul_eq_zero.mp this with h | h
    · exact absurd h (hw i).ne'
    · exact (dist2_zero.mp h).symm
  refine ⟨exact1, ?_⟩
  rintro ⟨i, j, hn⟩
  exact rot_unique hR hC hn (by rw [exact1, hp]) (by rw [exact1, hp])

/-- Without weights all vectors count the same. -/
theorem C170_unweighted (eig : M4 → Eig) (p0 p1 : Fin K → V3)
    (h : IsEigen (davenport (profile p0 p1 fun _ => 1)) (eig (davenport (profile p0 p1 fun _ => 1)))) :
    qMethod1 eig p0 p1 ∈ SO3 ∧ ∀ C : M3, C ∈ SO3 →
      ∑ i, dist2 (p0 i) ((qMethod1 eig p0 p1).mulVec (p1 i)) ≤ ∑ i, dist2 (p0 i) (C.mulVec (p1 i)) := by
  have := C170_best_rotation eig p0 p1 (fun _ => 1) (fun _ => zero_le_one) h
  simpa only [one_mul, qMethod1] using this

/-! ## Cases that meet the hypotheses -/

/-- The six ends of the axes. -/
def axes : Fin 6 → V3 := ![![1, 0, 0], ![-1, 0, 0], ![0, 1, 0], ![0, -1, 0], ![0, 0, 1], ![0, 0, -1]]

theorem mean_axes : mean axes = 0 := by
  ext i
  fin_cases i <;> simp [mean, axes, Fin.sum_univ_succ]

theorem mean_neg_axes : mean (fun i => -axes i) = 0 := by
  ext i
  fin_cases i <;> simp [mean, axes, Fin.sum_univ_succ]

/-- Points in a mirror: the matrix `H` is `-2`, the first rotation has determinant `-1` and is corrected. -/
example : ∃ svd : M3 → Svd, IsSvd (crossCov axes fun i => -axes i) (svd (crossCov axes fun i => -axes i)) ∧
    ((svd (crossCov axes fun i => -axes i)).V * (svd (crossCov axes fun i => -axes i)).Uᵀ).det < 0 := by
  refine ⟨fun _ => ⟨1, ![2, 2, 2], -1⟩, ⟨by simp, by simp, ?_, by simp, by simp, by simp⟩, ?_⟩
  · rw [crossCov, mean_axes, mean_neg_axes]
    ext i j
    fin_cases i <;> fin_cases j <;> simp [axes, Fin.sum_univ_succ, vecMulVec_apply, Matrix.sum_apply] <;> norm_num
  · simp [Matrix.det_fin_three]

/-- The same points in both frames; three of them are not on one line. -/
example : ∃ svd : M3 → Svd, IsSvd (crossCov axes axes) (svd (crossCov axes axes)) ∧
    (∃ i j k, NotCollinear (axes i) (axes j) (axes k)) ∧ ∀ i, axes i = transform (tfm 1 0) (axes i) := by
  refine ⟨fun _ => ⟨1, ![2, 2, 2], 1⟩, ⟨by simp, by simp, ?_, by simp, by simp, by simp⟩, ⟨0, 2, 4, ?_⟩, fun i => ?_⟩
  · rw [crossCov, mean_axes]
    ext i j
    fin_cases i <;> fin_cases j <;> simp [axes, Fin.sum_univ_succ, vecMulVec_apply, Matrix.sum_apply] <;> norm_num
  · intro h
    have := congrFun h 0
    simp [axes, cross_apply] at this
  · rw [transform_tfm]; simp

/-- Two different vectors, the same in both frames: the eigenvalues are `0, 0, -2, 2`. -/
example : ∃ eig : M4 → Eig, IsEigen (davenport (profile (K := 2) ![![1, 0, 0], ![0, 1, 0]] ![![1, 0, 0], ![0, 1, 0]] fun _ => 1))
    (eig (davenport (profile (K := 2) ![![1, 0, 0], ![0, 1, 0]] ![![1, 0, 0], ![0, 1, 0]] fun _ => 1))) ∧
    (∃ i j : Fin 2, crossProduct (![![1, 0, 0], ![0, 1, 0]] i : V3) (![![1, 0, 0], ![0, 1, 0]] j) ≠ 0) := by
  refine ⟨fun _ => ⟨![0, 0, -2, 2], 1⟩, ⟨by simp, ?_⟩, ⟨0, 1, ?_⟩⟩
  · rw [profile_eq _ _ _ fun _ => zero_le_one]
    ext i j
    fin_cases i <;> fin_cases j <;> simp [davenport, Fin.sum_univ_succ] <;> norm_num
  · intro h
    have := congrFun h 2
    simp [cross_apply] at this

end Kalibr.Align
