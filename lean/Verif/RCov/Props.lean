import Verif.RCov.Lemmas
import Mathlib.LinearAlgebra.Matrix.Block

/-!
# C195: the covariance from a triangular factor
-/

namespace Kalibr.RCov

open Matrix

/-- A matrix of `n` rows and columns as the code reads it. -/
def read {n : ℕ} (R : Matrix (Fin n) (Fin n) ℝ) : Mat := fun i j => if h : i < n ∧ j < n then R ⟨i, h.1⟩ ⟨j, h.2⟩ else 0

theorem read_lt {n : ℕ} (R : Matrix (Fin n) (Fin n) ℝ) {i j : ℕ} (hi : i < n) (hj : j < n) :
    read R i j = R ⟨i, hi⟩ ⟨j, hj⟩ := dif_pos ⟨hi, hj⟩

theorem sum_Ico {n : ℕ} (R S : Matrix (Fin n) (Fin n) ℝ) (hR : ∀ i j, j < i → R i j = 0) {i l : ℕ} (hi : i < n) (hl : l < n) :
    ∑ j ∈ Finset.Ico i n, read R i j * read S j l = (R * S) ⟨i, hi⟩ ⟨l, hl⟩ := by
  have h1 : (R * S) ⟨i, hi⟩ ⟨l, hl⟩ = ∑ j : Fin n, read R i j * read S j l := by
    rw [Matrix.mul_apply]
    refine Finset.sum_congr rfl fun j _ => ?_
    rw [read_lt R hi j.2, read_lt S j.2 hl]
  rw [h1, Fin.sum_univ_eq_sum_range (fun j => read R i j * read S j l) n, Finset.range_eq_Ico,
    ← Finset.sum_Ico_consecutive _ (Nat.zero_le i) hi.le]
  have h0 : ∑ j ∈ Finset.Ico 0 i, read R i j * read S j l = 0 := by
    refine Finset.sum_eq_zero fun j hj => ?_
    rw [Finset.mem_Ico] at hj
    rw [read_lt R hi (by omega), hR _ _ (by simpa [Fin.lt_def] using hj.2), zero_mul]
  rw [h0, zero_add]

theorem solves {n : ℕ} (R : Matrix (Fin n) (Fin n) ℝ) (hR : ∀ i j, j < i → R i j = 0) (hd : ∀ i, R i i ≠ 0) (b : ℕ) :
    Solves (read R) (read (Rᵀ * R)⁻¹) b n := by
  have ht : R.BlockTriangular id := fun i j h => hR i j h
  have hdet : IsUnit R.det := by
    rw [Matrix.det_of_upperTriangular ht, isUnit_iff_ne_zero]
    exact Finset.prod_ne_zero_iff.2 fun i _ => hd i
  haveI : Invertible R := Matrix.invertibleOfIsUnitDet R hdet
  have hinv : (R⁻¹).BlockTriangular id := Matrix.blockTriangular_inv_of_blockTriangular ht
  have hRS : R * (Rᵀ * R)⁻¹ = (R⁻¹)ᵀ := by
    rw [Matrix.mul_inv_rev, ← Matrix.mul_assoc, Matrix.mul_nonsing_inv R hdet, Matrix.one_mul, Matrix.transpose_nonsing_inv]
  have hsym : ((Rᵀ * R)⁻¹)ᵀ = (Rᵀ * R)⁻¹ := by
    rw [Matrix.transpose_nonsing_inv, Matrix.transpose_mul, Matrix.transpose_transpose]
  have hdiag (l : Fin n) : R⁻¹ l l = 1 / R l l := by
    have h1 : (R * R⁻¹) l l = 1 := by rw [Matrix.mul_nonsing_inv R hdet, Matrix.one_apply_eq]
    rw [Matrix.mul_apply, Finset.sum_eq_single l] at h1
    · rw [eq_div_iff (hd l), mul_comm]
      exact h1
    · intro j _ hj
      rcases lt_or_gt_of_ne hj with h | h
      · rw [hR l j h, zero_mul]
      · rw [hinv h, mul_zero]
    · simp
  refine ⟨fun i _ hi => ?_, fun i j _ hi _ hj => ?_, fun i l _ hil hl => ?_, fun l _ hl => ?_⟩
  · rw [read_lt R hi hi]
    exact hd _
  · rw [read_lt _ hi hj, read_lt _ hj hi]
    conv_lhs => rw [← hsym]
    rfl
  · rw [sum_Ico R _ hR (by omega) hl, hRS, Matrix.transpose_apply]
    exact hinv (by simpa [Fin.lt_def] using hil)
  · rw [sum_Ico R _ hR hl hl, hRS, Matrix.transpose_apply, hdiag, read_lt R hl hl]

/-- For an upper triangular matrix without a zero on its diagonal, and a range of at least two columns, the result is the block
of this range of the inverse of `Rᵀ R`; for any other range the function raises. -/
theorem C195_covariance_partial {n : ℕ} (R : Matrix (Fin n) (Fin n) ℝ) (hR : ∀ i j, j < i → R i j = 0) (hd : ∀ i, R i i ≠ 0)
    (colBegin colEnd : ℕ) :
    (∀ (_ : colBegin < colEnd) (he : colEnd < n), ∃ c, computeCovariance (read R) n colBegin colEnd =
        .ok (colEnd - colBegin + 1, c) ∧
      ∀ i j (hi : i ≤ colEnd - colBegin) (hj : j ≤ colEnd - colBegin),
        c i j = (Rᵀ * R)⁻¹ ⟨colBegin + i, by omega⟩ ⟨colBegin + j, by omega⟩) ∧
    (computeCovariance (read R) n colBegin colEnd = .raise ↔ ¬ (colBegin < colEnd ∧ colEnd < n)) := by
  have hok (hb : colBegin < colEnd) (he : colEnd < n) : check n colBegin colEnd = .ok () := by
    rw [check, if_neg (by omega), if_neg (by omega)]
  constructor
  · intro hb he
    refine ⟨_, by rw [computeCovariance, hok hb he]; rfl, fun i j hi hj => ?_⟩
    rw [columns_done (solves R hR hd colBegin) (n - colBegin) (by omega) _ _ (by omega) (by omega) (by omega) (by omega)
      (by omega), read_lt _ (by omega) (by omega)]
  · constructor
    · rintro h ⟨hb, he⟩
      rw [computeCovariance, hok hb he] at h
      cases h
    · intro h
      have : check n colBegin colEnd = .raise := by
        unfold check
        split_ifs <;> first | rfl | omega
      rw [computeCovariance, this]
      rfl

/-- The covariance of a single column, which every scalar variable has, cannot be asked for: the function raises. -/
theorem C195_counterexample {n : ℕ} (R : Mat) (col : ℕ) : computeCovariance R n col col = .raise ∧
    computeSumLogDiagR R n col col = .raise := by
  simp [computeCovariance, computeSumLogDiagR, check]

/-- The sum of the logarithms of the diagonal is the logarithm of the size of its product, in which tiny elements are left
out. -/
theorem C195_logarithm (R : Mat) (n colBegin colEnd : ℕ) (hb : colBegin < colEnd) (he : colEnd < n) :
    ∃ s, computeSumLogDiagR R n colBegin colEnd = .ok s ∧
      s = Real.logb 2 (∏ i ∈ (Finset.Icc colBegin colEnd).filter (fun i => |R i i| > epsilon), |R i i|) := by
  refine ⟨_, by rw [computeSumLogDiagR, check, if_neg (by omega), if_neg (by omega)]; rfl, ?_⟩
  have heps : 0 < epsilon := by unfold epsilon; positivity
  rw [Real.logb_prod _ _ (fun i hi => by
    rw [Finset.mem_filter] at hi
    exact (heps.trans hi.2).ne'), Finset.sum_filter]
  have : Finset.Icc colBegin colEnd = (List.range' colBegin (colEnd + 1 - colBegin)).toFinset := by
    ext i
    simp only [Finset.mem_Icc, List.mem_toFinset, List.mem_range'_1]
    omega
  rw [this, List.sum_toFinset _ List.nodup_range']

/-- Over all columns of a triangular matrix without tiny diagonal elements, twice the sum is the logarithm of the determinant of
`Rᵀ R`. -/
theorem C195_determinant {n : ℕ} (R : Matrix (Fin (n + 2)) (Fin (n + 2)) ℝ) (hR : ∀ i j, j < i → R i j = 0)
    (hd : ∀ i, |R i i| > epsilon) :
    ∃ s, computeSumLogDiagR (read R) (n + 2) 0 (n + 1) = .ok s ∧ 2 * s = Real.logb 2 (Rᵀ * R).det := by
  obtain ⟨s, h1, h2⟩ := C195_logarithm (read R) (n + 2) 0 (n + 1) (by omega) (by omega)
  refine ⟨s, h1, ?_⟩
  have hf : (Finset.Icc 0 (n + 1)).filter (fun i => |read R i i| > epsilon) = Finset.range (n + 2) := by
    ext i
    simp only [Finset.mem_filter, Finset.mem_Icc, Finset.mem_range]
    constructor
    · intro h; omega
    · intro h
      refine ⟨by omega, ?_⟩
      rw [read_lt R h h]
      exact hd _
  have ht : R.BlockTriangular id := fun i j h => hR i j h
  have hp : ∏ i ∈ Finset.range (n + 2), |read R i i| = |R.det| := by
    rw [Matrix.det_of_upperTriangular ht, Finset.abs_prod, ← Fin.prod_univ_eq_prod_range (fun i => |read R i i|)]
    refine Finset.prod_congr rfl fun i _ => ?_
    rw [read_lt R i.2 i.2]
  rw [h2, hf, hp, Matrix.det_mul, Matrix.det_transpose, ← sq, ← sq_abs, Real.logb_pow]
  norm_num

/-- A triangular matrix of three columns. -/
example : let R : Matrix (Fin 3) (Fin 3) ℝ := !![2, 1, 3; 0, -1, 4; 0, 0, 5]
    (∀ i j, j < i → R i j = 0) ∧ (∀ i, R i i ≠ 0) ∧ ∀ i, |R i i| > epsilon := by
  refine ⟨?_, ?_, ?_⟩
  · intro i j h
    fin_cases i <;> fin_cases j <;> first | rfl | (exact absurd h (by decide))
  · intro i
    fin_cases i <;> simp
  · intro i
    fin_cases i <;> norm_num [epsilon]

end Kalibr.RCov
