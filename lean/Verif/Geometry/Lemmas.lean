import Verif.Tactics
import Verif.Geometry.Model
import Mathlib.Algebra.BigOperators.Intervals
import Mathlib.Algebra.BigOperators.Fin

namespace Kalibr.Geometry

open Kalibr.Camera Kalibr.Reproj

theorem setBlock_ok {A B : Dyn} {r c : ℕ} (hr : r + B.rows ≤ A.rows) (hc : c + B.cols ≤ A.cols) :
    ∃ A', A.setBlock r c B = .ok A' ∧ A'.rows = A.rows ∧ A'.cols = A.cols ∧
      ∀ i j, i < A.rows → A'.coeff i j =
        if (r ≤ i ∧ i < r + B.rows) ∧ c ≤ j ∧ j < c + B.cols then B.coeff (i - r) (j - c) else A.coeff i j := by
  unfold Dyn.setBlock
  by_cases h0 : B.rows = 0 ∨ B.cols = 0
  · refine ⟨A, by simp [h0], rfl, rfl, fun i j _ => ?_⟩
    rw [if_neg]
    rintro ⟨⟨h1, h2⟩, h3, h4⟩
    rcases h0 with h0 | h0 <;> omega
  · have hb : 0 < B.rows ∧ 0 < B.cols := by omega
    have hlt : r + A.rows * c + (B.rows - 1) + A.rows * (B.cols - 1) < A.rows * A.cols := by
      have h1 : A.rows * (c + B.cols) ≤ A.rows * A.cols := Nat.mul_le_mul_left _ hc
      have h2 : A.rows * (c + B.cols) = A.rows * c + A.rows * (B.cols - 1) + A.rows := by
        obtain ⟨n, hn⟩ : ∃ n, B.cols = n + 1 := ⟨B.cols - 1, by omega⟩
        rw [hn]; simp only [Nat.add_sub_cancel]; ring
      omega
    simp only [h0, if_false, hlt, if_true]
    refine ⟨_, rfl, rfl, rfl, fun i j hi => ?_⟩
    have hpos : 0 < A.rows := by omega
    simp only [Dyn.coeff]
    by_cases hri : r ≤ i
    · by_cases hcj : c ≤ j
      · obtain ⟨x, rfl⟩ := Nat.exists_eq_add_of_le hri
        obtain ⟨y, rfl⟩ := Nat.exists_eq_add_of_le hcj
        have e : r + x + A.rows * (c + y) - (r + A.rows * c) = x + A.rows * y := by
          rw [Nat.mul_add]; omega
        have h1 : r + A.rows * c ≤ r + x + A.rows * (c + y) := by rw [Nat.mul_add]; omega
        have h2 : (x + A.rows * y) % A.rows = x := by
          rw [Nat.add_mul_mod_self_left, Nat.mod_eq_of_lt (by omega)]
        have h3 : (x + A.rows * y) / A.rows = y := by
          rw [Nat.add_mul_div_left _ _ hpos, Nat.div_eq_of_lt (by omega), Nat.zero_add]
        simp only [e, h2, h3, h1, true_and, Nat.add_sub_cancel_left]
        have : (x < B.rows ∧ y < B.cols) ↔ ((r ≤ r + x ∧ r + x < r + B.rows) ∧ c ≤ c + y ∧ c + y < c + B.cols) := by
          omega
        simp only [this]
      · rw [if_neg, if_neg]
        · omega
        · rintro ⟨h1, -⟩
          have : A.rows * (j + 1) ≤ A.rows * c := Nat.mul_le_mul_left _ (by omega)
          have : A.rows * (j + 1) = A.rows * j + A.rows := by ring
          omega
    · rw [if_neg, if_neg]
      · omega
      · rintro ⟨h1, h2, -⟩
        have hcj : c < j := by
          by_contra hcj
          have : A.rows * j ≤ A.rows * c := Nat.mul_le_mul_left _ (by omega)
          omega
        obtain ⟨y, rfl⟩ : ∃ y, j = c + y + 1 := ⟨j - c - 1, by omega⟩
        have e : i + A.rows * (c + y + 1) - (r + A.rows * c) = (A.rows - r + i) + A.rows * y := by
          have : A.rows * (c + y + 1) = A.rows * c + A.rows * y + A.rows := by ring
          omega
        rw [e, Nat.add_mul_mod_self_left, Nat.mod_eq_of_lt (by omega)] at h2
        omega

theorem block_ok {A : Dyn} {r c m n : ℕ} (hr : r + m ≤ A.rows) (hc : c + n ≤ A.cols) :
    ∃ B, A.block r c m n = .ok B ∧ ∀ i j, i < m → j < n → B.coeff i j = A.coeff (r + i) (c + j) := by
  unfold Dyn.block
  by_cases h0 : m = 0 ∨ n = 0
  · refine ⟨_, by rw [if_pos h0], fun i j hi hj => ?_⟩
    rcases h0 with h0 | h0 <;> omega
  · have hlt : r + A.rows * c + (m - 1) + A.rows * (n - 1) < A.rows * A.cols := by
      have h1 : A.rows * (c + n) ≤ A.rows * A.cols := Nat.mul_le_mul_left _ hc
      have h2 : A.rows * (c + n) = A.rows * c + A.rows * (n - 1) + A.rows := by
        obtain ⟨k, hn⟩ : ∃ k, n = k + 1 := ⟨n - 1, by omega⟩
        rw [hn]; simp only [Nat.add_sub_cancel]; ring
      omega
    refine ⟨_, by rw [if_neg h0, if_pos hlt], fun i j hi hj => ?_⟩
    have h2 : (i + m * j) % m = i := by rw [Nat.add_mul_mod_self_left, Nat.mod_eq_of_lt hi]
    have h3 : (i + m * j) / m = j := by
      rw [Nat.add_mul_div_left _ _ (by omega), Nat.div_eq_of_lt hi, Nat.zero_add]
    simp only [Dyn.coeff, h2, h3]

@[simp] theorem of_rows {m n : ℕ} (M : Matrix (Fin m) (Fin n) ℝ) : (Dyn.of M).rows = m := rfl
@[simp] theorem of_cols {m n : ℕ} (M : Matrix (Fin m) (Fin n) ℝ) : (Dyn.of M).cols = n := rfl

theorem of_coeff {m n : ℕ} (M : Matrix (Fin m) (Fin n) ℝ) (i : Fin m) (j : Fin n) :
    (Dyn.of M).coeff i j = M i j := by
  have hm : 0 < m := by have := i.2; omega
  have h2 : (i.val + m * j.val) % m = i := by rw [Nat.add_mul_mod_self_left, Nat.mod_eq_of_lt i.2]
  have h3 : (i.val + m * j.val) / m = j := by
    rw [Nat.add_mul_div_left _ _ hm, Nat.div_eq_of_lt i.2, Nat.zero_add]
  simp only [Dyn.coeff, Dyn.of, h2, h3]
  rw [dif_pos ⟨hm, j.2⟩]

@[simp] theorem zero_rows (m n : ℕ) : (Dyn.zero m n).rows = m := rfl
@[simp] theorem zero_cols (m n : ℕ) : (Dyn.zero m n).cols = n := rfl
@[simp] theorem zero_coeff (m n i j : ℕ) : (Dyn.zero m n).coeff i j = 0 := rfl

/-- The columns of the projection and of the distortion in a vector of all parameters. -/
def dimP (ni : ℕ) (a : Active) : ℕ := if a.projection then ni else 0
def dimD (nd : ℕ) (a : Active) : ℕ := if a.distortion then nd else 0
def dimS (rs : Bool) (a : Active) : ℕ := if a.shutter then shutterDims rs else 0

theorem dims_eq (ni nd : ℕ) (rs : Bool) (a : Active) :
    minimalDimensions ni nd rs a = dimP ni a + dimD nd a + dimS rs a := by
  unfold minimalDimensions dimP dimD dimS
  cases a.projection <;> cases a.distortion <;> cases a.shutter <;> simp

end Kalibr.Geometry
