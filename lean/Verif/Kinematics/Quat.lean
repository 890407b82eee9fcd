import Verif.Kinematics.Model
import Verif.Tactics
import Mathlib.Algebra.Quaternion
import Mathlib.LinearAlgebra.UnitaryGroup
import Mathlib.Tactic.FinCases
import Mathlib.Tactic.LinearCombination

/-!
# Quaternions and rotation matrices (C48, C49)
-/

namespace Kalibr.Kin

open Matrix Real Quaternion

/-- Specification: proper rotations of space, Mathlib's special orthogonal group. -/
abbrev SO3 : Submonoid M3 := Matrix.specialOrthogonalGroup (Fin 3) ℝ

/-- Specification: quaternions of unit length. -/
def Unit4 (q : V4) : Prop := q 0 ^ 2 + q 1 ^ 2 + q 2 ^ 2 + q 3 ^ 2 = 1

/-- Specification: the same four numbers as a quaternion of Mathlib. -/
def toH (q : V4) : ℍ[ℝ] := ⟨q 3, q 0, q 1, q 2⟩

theorem ext3 {u v : V3} (h0 : u 0 = v 0) (h1 : u 1 = v 1) (h2 : u 2 = v 2) : u = v := by
  funext i; fin_cases i <;> assumption

theorem ext4 {u v : V4} (h0 : u 0 = v 0) (h1 : u 1 = v 1) (h2 : u 2 = v 2) (h3 : u 3 = v 3) : u = v := by
  funext i; fin_cases i <;> assumption

/-! ## C48 -/

/-- The product of quaternions is multiplication of Hamilton's quaternions, with the factors exchanged
(the convention in which composing rotations from left to right multiplies quaternions from left to
right). -/
theorem C48_product_is_quaternion_product (q p : V4) : toH (qplus q p) = toH p * toH q := by
  have r (q : V4) : (toH q).re = q 3 := rfl
  have i (q : V4) : (toH q).imI = q 0 := rfl
  have j (q : V4) : (toH q).imJ = q 1 := rfl
  have k (q : V4) : (toH q).imK = q 2 := rfl
  ext <;> simp [r, i, j, k, qplus] <;> ring

/-- The rotation matrix of a product is the product of the rotation matrices, for all quaternions. -/
theorem C48_matrix_of_product (q p : V4) : quat2r (qplus q p) = quat2r q * quat2r p := by
  ext i j
  fin_cases i <;> fin_cases j <;>
    simp [quat2r, qplus, Matrix.mul_apply, Fin.sum_univ_succ] <;> ring

/-- Rotating a vector is multiplying by the rotation matrix, for unit quaternions. -/
theorem C48_rotate_is_matrix (q : V4) (hq : Unit4 q) (v : V3) : quatRotate q v = (quat2r q).mulVec v := by
  unfold Unit4 at hq
  apply ext3 <;>
    simp [quatRotate, quat2r, qeps, crossProduct, Matrix.mulVec, dotProduct, Fin.sum_univ_succ, Matrix.vecHead,
      Matrix.vecTail]
  · linear_combination (-v 0) * hq
  · linear_combination (-v 1) * hq
  · linear_combination (-v 2) * hq

/-- The inverse quaternion has the transposed matrix. -/
theorem C48_inverse_is_transpose (q : V4) : quat2r (quatInv q) = (quat2r q)ᵀ := by
  ext i j
  fin_cases i <;> fin_cases j <;> simp [quat2r, quatInv] <;> ring

/-- The inverse quaternion is the inverse for the product, on both sides. -/
theorem C48_inverse (q : V4) (hq : Unit4 q) :
    qplus q (quatInv q) = quatIdentity ∧ qplus (quatInv q) q = quatIdentity := by
  unfold Unit4 at hq
  constructor <;> apply ext4 <;> simp [qplus, quatInv, quatIdentity] <;> first | (ring; done) | linarith

/-- Composition is associative and has the identity as neutral element. -/
theorem C48_monoid (q p r : V4) : qplus (qplus q p) r = qplus q (qplus p r) ∧ qplus q quatIdentity = q ∧
    qplus quatIdentity q = q := by
  refine ⟨?_, ?_, ?_⟩ <;> apply ext4 <;> simp [qplus, quatIdentity] <;> ring

/-- Unit quaternions are closed under product and inverse, and the identity is one. -/
theorem C48_unit_closed (q p : V4) (hq : Unit4 q) (hp : Unit4 p) :
    Unit4 (qplus q p) ∧ Unit4 (quatInv q) ∧ Unit4 quatIdentity := by
  unfold Unit4 at *
  refine ⟨?_, ?_, ?_⟩
  · simp [qplus]
    linear_combination (p 0 ^ 2 + p 1 ^ 2 + p 2 ^ 2 + p 3 ^ 2) * hq + hp
  · simpa [quatInv] using hq
  · simp [quatIdentity]

/-- Unit quaternions give proper rotations. -/
theorem C48_unit_gives_rotation (q : V4) (hq : Unit4 q) : quat2r q ∈ SO3 := by
  unfold Unit4 at hq
  rw [Matrix.mem_specialOrthogonalGroup_iff, Matrix.mem_orthogonalGroup_iff]
  constructor
  · rw [← C48_inverse_is_transpose,
      ← C48_matrix_of_product, (C48_inverse q hq).1]
    ext i j
    fin_cases i <;> fin_cases j <;> simp [quat2r, quatIdentity]
  · rw [Matrix.det_fin_three]
    simp [quat2r]
    have : (q 0 ^ 2 + q 1 ^ 2 + q 2 ^ 2 + q 3 ^ 2) ^ 3 = 1 := by rw [hq]; norm_num
    linear_combination this

/-- A quaternion and its negation stand for the same rotation, and no other unit quaternions do. -/
theorem C48_double_cover (q p : V4) (hq : Unit4 q) (hp : Unit4 p) :
    quat2r q = quat2r p ↔ q = p ∨ q = -p := by
  constructor
  · intro h
    have e : ∀ i j, quat2r q i j = quat2r p i j := fun i j => by rw [h]
    unfold Unit4 at *
    have h00 := e 0 0; have h01 := e 0 1; have h02 := e 0 2; have h10 := e 1 0; have h11 := e 1 1
    have h12 := e 1 2; have h20 := e 2 0; have h21 := e 2 1; have h22 := e 2 2
    simp [quat2r] at h00 h01 h02 h10 h11 h12 h20 h21 h22
    -- all products of components agree
    have hs : (q 0 * p 0 + q 1 * p 1 + q 2 * p 2 + q 3 * p 3) ^ 2 = 1 := by
      have a00 : q 0 * q 0 = p 0 * p 0 := by linarith
      have a11 : q 1 * q 1 = p 1 * p 1 := by linarith
      have a22 : q 2 * q 2 = p 2 * p 2 := by linarith
      have a33 : q 3 * q 3 = p 3 * p 3 := by linarith
      have a01 : q 0 * q 1 = p 0 * p 1 := by linarith
      have a02 : q 0 * q 2 = p 0 * p 2 := by linarith
      have a03 : q 0 * q 3 = p 0 * p 3 := by linarith
      have a12 : q 1 * q 2 = p 1 * p 2 := by linarith
      have a13 : q 1 * q 3 = p 1 * p 3 := by linarith
      have a23 : q 2 * q 3 = p 2 * p 3 := by linarith
      have hp2 : (p 0 ^ 2 + p 1 ^ 2 + p 2 ^ 2 + p 3 ^ 2) ^ 2 = 1 := by rw [hp]; norm_num
      linear_combination hp2 + p 0 ^ 2 * a00 + p 1 ^ 2 * a11 + p 2 ^ 2 * a22 + p 3 ^ 2 * a33 +
        2 * p 0 * p 1 * a01 + 2 * p 0 * p 2 * a02 + 2 * p 0 * p 3 * a03 + 2 * p 1 * p 2 * a12 +
        2 * p 1 * p 3 * a13 + 2 * p 2 * p 3 * a23
    rcases (sq_eq_one_iff.mp hs) with h1 | h1
    · left
      have : (q 0 - p 0) ^ 2 + (q 1 - p 1) ^ 2 + (q 2 - p 2) ^ 2 + (q 3 - p 3) ^ 2 = 0 := by
        linear_combination hq + hp - 2 * h1
      have := sq_nonneg (q 0 - p 0); have := sq_nonneg (q 1 - p 1); have := sq_nonneg (q 2 - p 2)
      have := sq_nonneg (q 3 - p 3)
      apply ext4 <;> apply sub_eq_zero.mp <;> apply pow_eq_zero_iff (two_ne_zero) |>.mp <;> linarith
    · right
      have : (q 0 + p 0) ^ 2 + (q 1 + p 1) ^ 2 + (q 2 + p 2) ^ 2 + (q 3 + p 3) ^ 2 = 0 := by
        linear_combination hq + hp + 2 * h1
      have := sq_nonneg (q 0 + p 0); have := sq_nonneg (q 1 + p 1); have := sq_nonneg (q 2 + p 2)
      have := sq_nonneg (q 3 + p 3)
      apply ext4 <;> simp only [Pi.neg_apply] <;> apply eq_neg_of_add_eq_zero_left <;>
        apply pow_eq_zero_iff (two_ne_zero) |>.mp <;> linarith
  · rintro (rfl | rfl)
    · rfl
    · ext i j
      fin_cases i <;> fin_cases j <;> simp [quat2r]

/-- The matrices `quatPlus` and `quatOPlus` are left and right multiplication. -/
theorem C48_multiplication_matrices (q p : V4) : (quatPlus q).mulVec p = qplus q p ∧
    (quatOPlus q).mulVec p = qplus p q ∧ qoplus q p = qplus p q := by
  refine ⟨?_, ?_, ?_⟩ <;> apply ext4 <;>
    simp [quatPlus, quatOPlus, qplus, qoplus, Matrix.mulVec, dotProduct, Fin.sum_univ_succ] <;> ring

example : Unit4 ![1 / 2, 1 / 2, -1 / 2, 1 / 2] := by simp [Unit4]; norm_num

end Kalibr.Kin
