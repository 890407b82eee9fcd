import Verif.Kinematics.R2Quat

/-!
# Rigid transformations (C50)
-/

namespace Kalibr.Kin

open Matrix Real

/-- The orientation of a transformation is a unit quaternion: what every constructor establishes. -/
def Trafo.Valid (A : Trafo) : Prop := Unit4 A.q

/-- Specification: a rigid motion as a homogeneous matrix. -/
def Rigid (T : M4) : Prop := ∃ C ∈ SO3, ∃ t : V3, T = rt2Transform C t

theorem normalize_unit {q : V4} (h : Unit4 q) : normalize q = q := by
  unfold normalize norm4
  unfold Unit4 at h
  rw [h]; simp

/-- The constructor from a quaternion produces a unit quaternion for every quaternion but zero. -/
theorem C50_constructor_normalises (q : V4) (t : V3) (h : q ≠ 0) : (Trafo.mk' q t).Valid := by
  have hp : 0 < q 0 ^ 2 + q 1 ^ 2 + q 2 ^ 2 + q 3 ^ 2 := by
    by_contra hn
    apply h
    have h0 := sq_nonneg (q 0); have h1 := sq_nonneg (q 1); have h2 := sq_nonneg (q 2)
    have h3 := sq_nonneg (q 3)
    apply ext4 <;> simp only [Pi.zero_apply] <;> apply pow_eq_zero_iff (two_ne_zero) |>.mp <;> linarith
  unfold Trafo.Valid Trafo.mk' Unit4 normalize norm4
  simp only [Pi.smul_apply, smul_eq_mul]
  set s := q 0 ^ 2 + q 1 ^ 2 + q 2 ^ 2 + q 3 ^ 2 with hs
  have h1 : √s ^ 2 = s := Real.sq_sqrt (le_of_lt hp)
  have h2 : √s ≠ 0 := (Real.sqrt_pos.mpr hp).ne'
  have h3 : (√s)⁻¹ ^ 2 * s = 1 := by rw [inv_pow, h1]; field_simp
  linear_combination h3 - (√s)⁻¹ ^ 2 * hs

theorem rt2Transform_mul (C D : M3) (t u : V3) :
    rt2Transform C t * rt2Transform D u = rt2Transform (C * D) (C.mulVec u + t) := by
  ext i j
  fin_cases i <;> fin_cases j <;>
    simp [rt2Transform, Matrix.mul_apply, Matrix.mulVec, dotProduct, Fin.sum_univ_succ] <;> ring

theorem rt2Transform_one : rt2Transform 1 0 = 1 := by
  ext i j
  fin_cases i <;> fin_cases j <;> simp [rt2Transform]

theorem quat2r_identity : quat2r quatIdentity = 1 := by
  ext i j
  fin_cases i <;> fin_cases j <;> simp [quat2r, quatIdentity]

theorem transform2C_rt (C : M3) (t : V3) : transform2C (rt2Transform C t) = C := by
  ext i j
  fin_cases i <;> fin_cases j <;> simp [rt2Transform, transform2C]

theorem transform2rho_rt (C : M3) (t : V3) : transform2rho (rt2Transform C t) = t := by
  apply ext3 <;> simp [rt2Transform, transform2rho]

/-- Products, inverses and the identity are valid, so that every transformation built from valid ones is. -/
theorem C50_closed (A B : Trafo) (hA : A.Valid) (hB : B.Valid) :
    (A.mul B).Valid ∧ A.inverse.Valid ∧ Trafo.one.Valid := by
  obtain ⟨h1, h2, h3⟩ := C48_unit_closed A.q B.q hA hB
  refine ⟨?_, ?_, h3⟩
  · unfold Trafo.Valid Trafo.mul Trafo.mk'; rw [normalize_unit h1]; exact h1
  · unfold Trafo.Valid Trafo.inverse Trafo.mk'; rw [normalize_unit h2]; exact h2

/-- The homogeneous matrix of a product is the product of the homogeneous matrices. -/
theorem C50_matrix_of_product (A B : Trafo) (hA : A.Valid) (hB : B.Valid) : (A.mul B).T = A.T * B.T := by
  unfold Trafo.T Trafo.mul Trafo.mk'
  rw [normalize_unit (C48_unit_closed _ _ hA hB).1, rt2Transform_mul, C48_matrix_of_product,
    C48_rotate_is_matrix _ hA]

/-- The homogeneous matrix of the identity is the identity matrix. -/
theorem C50_matrix_of_identity : Trafo.one.T = 1 := by
  unfold Trafo.T Trafo.one
  rw [quat2r_identity, ← rt2Transform_one]
  congr 1
  apply ext3 <;> simp

/-- The homogeneous matrix of the inverse is the inverse matrix, on both sides, and it is what
`inverseTransform` computes from the matrix. -/
theorem C50_matrix_of_inverse (A : Trafo) (hA : A.Valid) :
    A.inverse.T * A.T = 1 ∧ A.T * A.inverse.T = 1 ∧ inverseTransform A.T = A.inverse.T := by
  have hi := (C48_unit_closed A.q A.q hA hA).2.1
  have e : A.inverse.T = rt2Transform (quat2r A.q)ᵀ ((quat2r A.q)ᵀ.mulVec (-A.t)) := by
    unfold Trafo.T Trafo.inverse Trafo.mk'
    rw [normalize_unit hi]
    simp only
    rw [C48_rotate_is_matrix _ hi, C48_inverse_is_transpose]
  have ho := Matrix.mem_specialOrthogonalGroup_iff.mp (C48_unit_gives_rotation A.q hA)
  have h1 := (Matrix.mem_orthogonalGroup_iff _ _).mp ho.1
  have h2 := (Matrix.mem_orthogonalGroup_iff' _ _).mp ho.1
  refine ⟨?_, ?_, ?_⟩
  · rw [e, Trafo.T, rt2Transform_mul, h2, Matrix.mulVec_neg, add_neg_cancel, rt2Transform_one]
  · rw [e, Trafo.T, rt2Transform_mul, h1, Matrix.mulVec_mulVec, h1, Matrix.one_mulVec, neg_add_cancel,
      rt2Transform_one]
  · rw [e]
    unfold inverseTransform Trafo.T
    simp only [transform2C_rt, transform2rho_rt, Matrix.neg_mulVec, Matrix.mulVec_neg]

/-- The group laws hold for the stored quaternions and translations themselves. -/
theorem C50_group_laws (A B D : Trafo) (hA : A.Valid) (hB : B.Valid) (hD : D.Valid) :
    (A.mul B).mul D = A.mul (B.mul D) ∧ A.mul .one = A ∧ Trafo.one.mul A = A ∧ A.mul A.inverse = .one ∧
      A.inverse.mul A = .one := by
  have hAB := (C48_unit_closed _ _ hA hB).1
  have hBD := (C48_unit_closed _ _ hB hD).1
  have hi := (C48_unit_closed A.q A.q hA hA).2.1
  have hI : Unit4 quatIdentity := (C48_unit_closed A.q A.q hA hA).2.2
  have z : (![0, 0, 0] : V3) = 0 := by apply ext3 <;> simp
  have ho := Matrix.mem_specialOrthogonalGroup_iff.mp (C48_unit_gives_rotation A.q hA)
  have h1 := (Matrix.mem_orthogonalGroup_iff _ _).mp ho.1
  have h2 := (Matrix.mem_orthogonalGroup_iff' _ _).mp ho.1
  refine ⟨?_, ?_, ?_, ?_, ?_⟩
  · unfold Trafo.mul Trafo.mk'
    simp only
    rw [normalize_unit hAB, normalize_unit hBD, (C48_monoid A.q B.q D.q).1,
      normalize_unit (C48_unit_closed _ _ hA hBD).1, C48_rotate_is_matrix _ hAB, C48_rotate_is_matrix _ hA,
      C48_rotate_is_matrix _ hB, C48_rotate_is_matrix _ hA, C48_matrix_of_product, Matrix.mulVec_add,
      Matrix.mulVec_mulVec, add_assoc]
  · unfold Trafo.mul Trafo.mk' Trafo.one
    simp only
    rw [(C48_monoid A.q A.q A.q).2.1, normalize_unit hA, z, C48_rotate_is_matrix _ hA, Matrix.mulVec_zero,
      zero_add]
  · unfold Trafo.mul Trafo.mk' Trafo.one
    simp only
    rw [(C48_monoid A.q A.q A.q).2.2, normalize_unit hA, z, C48_rotate_is_matrix _ hI, quat2r_identity,
      Matrix.one_mulVec, add_zero]
  · unfold Trafo.mul Trafo.inverse Trafo.mk' Trafo.one
    simp only
    rw [normalize_unit hi, (C48_inverse _ hA).1, normalize_unit hI, z, C48_rotate_is_matrix _ hA,
      C48_rotate_is_matrix _ hi, C48_inverse_is_transpose, Matrix.mulVec_mulVec, h1, Matrix.one_mulVec,
      neg_add_cancel]
  · unfold Trafo.mul Trafo.inverse Trafo.mk' Trafo.one
    simp only
    rw [normalize_unit hi, (C48_inverse _ hA).2, normalize_unit hI, z, C48_rotate_is_matrix _ hi,
      C48_rotate_is_matrix _ hi, Matrix.mulVec_neg, add_neg_cancel]

/-- Acting on a point agrees with the homogeneous matrix, for points and for homogeneous points. -/
theorem C50_action_is_matrix (A : Trafo) (hA : A.Valid) (p : V3) (ph : V4) :
    A.T.mulVec ![p 0, p 1, p 2, 1] = ![A.apply p 0, A.apply p 1, A.apply p 2, 1] ∧
      A.applyH ph = A.T.mulVec ph := by
  constructor
  · apply ext4 <;>
      simp [Trafo.T, Trafo.apply, C48_rotate_is_matrix _ hA, rt2Transform, Matrix.mulVec, dotProduct,
        Fin.sum_univ_succ] <;> ring
  · apply ext4 <;>
      simp [Trafo.T, Trafo.applyH, C48_rotate_is_matrix _ hA, rt2Transform, Matrix.mulVec, dotProduct,
        Fin.sum_univ_succ] <;> ring

/-- Acting is a group action: products act one after the other, the identity does nothing and the inverse
undoes. -/
theorem C50_action (A B : Trafo) (hA : A.Valid) (hB : B.Valid) (p : V3) :
    (A.mul B).apply p = A.apply (B.apply p) ∧ Trafo.one.apply p = p ∧ A.inverse.apply (A.apply p) = p ∧
      A.apply (A.inverse.apply p) = p := by
  have act (A B : Trafo) (hA : A.Valid) (hB : B.Valid) : (A.mul B).apply p = A.apply (B.apply p) := by
    have hAB := (C48_unit_closed _ _ hA hB).1
    unfold Trafo.apply Trafo.mul Trafo.mk'
    simp only
    rw [normalize_unit hAB, C48_rotate_is_matrix _ hAB, C48_rotate_is_matrix _ hA, C48_rotate_is_matrix _ hB,
      C48_rotate_is_matrix _ hA, C48_matrix_of_product, Matrix.mulVec_add, Matrix.mulVec_mulVec, add_assoc]
  have one : Trafo.one.apply p = p := by
    unfold Trafo.apply Trafo.one
    apply ext3 <;> simp [quatRotate, quatIdentity, qeps, crossProduct, Matrix.vecHead, Matrix.vecTail]
  have hi := (C50_closed A A hA hA).2.1
  obtain ⟨-, -, -, h4, h5⟩ := C50_group_laws A A A hA hA hA
  refine ⟨act A B hA hB, one, ?_, ?_⟩
  · rw [← act _ _ hi hA, h5, one]
  · rw [← act _ _ hA hi, h4, one]

/-- Distances between points are kept. -/
theorem C50_isometry (A : Trafo) (hA : A.Valid) (p r : V3) :
    norm3 (A.apply p - A.apply r) = norm3 (p - r) := by
  have e := SO3.eqs (C48_unit_gives_rotation A.q hA)
  have h : A.apply p - A.apply r = (quat2r A.q).mulVec (p - r) := by
    unfold Trafo.apply
    rw [C48_rotate_is_matrix _ hA, C48_rotate_is_matrix _ hA, Matrix.mulVec_sub]
    abel
  rw [h]
  unfold norm3
  congr 1
  generalize p - r = v
  generalize quat2r A.q = R at e
  obtain ⟨_, _, _, c0, c1, c2, _, _, _, c01, c02, c12, _⟩ := e
  simp only [Matrix.mulVec, dotProduct, Fin.sum_univ_three]
  linear_combination v 0 ^ 2 * c0 + v 1 ^ 2 * c1 + v 2 ^ 2 * c2 + 2 * v 0 * v 1 * c01 + 2 * v 0 * v 2 * c02 +
    2 * v 1 * v 2 * c12

/-- Reading a transformation from the matrix of a rigid motion and writing the matrix gives the same
matrix; the transformation is valid. -/
theorem C50_from_matrix (T : M4) (h : Rigid T) : (Trafo.ofMatrix T).T = T ∧ (Trafo.ofMatrix T).Valid := by
  obtain ⟨C, hC, t, rfl⟩ := h
  obtain ⟨h1, h2, -⟩ := C49_round_trip C hC
  unfold Trafo.ofMatrix Trafo.T Trafo.Valid
  simp only [transform2C_rt, transform2rho_rt]
  exact ⟨by rw [h1], h2⟩

/-- The matrices of valid transformations are exactly the rigid motions. -/
theorem C50_matrices (T : M4) : Rigid T ↔ ∃ A : Trafo, A.Valid ∧ A.T = T :=
  ⟨fun h => ⟨_, (C50_from_matrix T h).2, (C50_from_matrix T h).1⟩,
    fun ⟨A, hA, h⟩ => ⟨_, C48_unit_gives_rotation A.q hA, A.t, h.symm⟩⟩

/-- A transformation that is neither a pure rotation nor a pure translation. -/
example : (⟨![3 / 5, 0, 0, 4 / 5], ![1, 2, 3]⟩ : Trafo).Valid := by
  simp [Trafo.Valid, Unit4]; norm_num

end Kalibr.Kin
