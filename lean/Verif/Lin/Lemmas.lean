import Verif.Lin.Spec
import Verif.Tactics
import Mathlib.LinearAlgebra.Matrix.NonsingularInverse
import Mathlib.Tactic.LinearCombination

/-!
# Least squares by an orthogonal factor
-/

namespace Kalibr.Lin

open Finset

variable {K : Type} [Field K] [LinearOrder K]

omit [LinearOrder K] in
/-- The rows of an orthogonal matrix are orthonormal too. -/
theorem rows_orth {m : Nat} {q : Nat → Nat → K}
    (h : ∀ i k, i < m → k < m → ∑ l ∈ range m, q l i * q l k = if i = k then 1 else 0) {p r : Nat} (hp : p < m) (hr : r < m) :
    ∑ i ∈ range m, q p i * q r i = if p = r then 1 else 0 := by
  obtain ⟨A, hA⟩ : ∃ A : Matrix (Fin m) (Fin m) K, A = Matrix.of fun i j => q i.1 j.1 := ⟨_, rfl⟩
  have h1 : A.transpose * A = 1 := by
    ext i k
    rw [Matrix.mul_apply, Matrix.one_apply]
    have := h i k i.2 k.2
    rw [Finset.sum_range] at this
    simp only [Matrix.transpose_apply, hA, Fin.ext_iff, Matrix.of_apply]
    exact this
  have h2 : A * A.transpose = 1 := mul_eq_one_comm.1 h1
  have := congrFun (congrFun h2 ⟨p, hp⟩) ⟨r, hr⟩
  rw [Matrix.mul_apply, Matrix.one_apply] at this
  rw [Finset.sum_range]
  simpa [Matrix.transpose_apply, hA, Fin.ext_iff] using this

omit [LinearOrder K] in
/-- `Qᵀ` preserves inner products. -/
theorem orth_inner {m : Nat} {q : Nat → Nat → K}
    (h : ∀ i k, i < m → k < m → ∑ l ∈ range m, q l i * q l k = if i = k then 1 else 0) (u v : Nat → K) :
    ∑ i ∈ range m, (∑ p ∈ range m, q p i * u p) * (∑ p ∈ range m, q p i * v p) = ∑ p ∈ range m, u p * v p := by
  calc ∑ i ∈ range m, (∑ p ∈ range m, q p i * u p) * (∑ p ∈ range m, q p i * v p)
      = ∑ i ∈ range m, ∑ p ∈ range m, ∑ r ∈ range m, (q p i * q r i) * (u p * v r) := by
        refine sum_congr rfl fun i _ => ?_
        rw [sum_mul_sum]
        exact sum_congr rfl fun p _ => sum_congr rfl fun r _ => by ring
    _ = ∑ p ∈ range m, ∑ r ∈ range m, (∑ i ∈ range m, q p i * q r i) * (u p * v r) := by
        rw [sum_comm]
        refine sum_congr rfl fun p _ => ?_
        rw [sum_comm]
        exact sum_congr rfl fun r _ => by rw [sum_mul]
    _ = ∑ p ∈ range m, u p * v p := by
        refine sum_congr rfl fun p hp => ?_
        rw [sum_eq_single p]
        · rw [rows_orth h (mem_range.1 hp) (mem_range.1 hp), if_pos rfl, one_mul]
        · intro r hr hne
          rw [rows_orth h (mem_range.1 hp) (mem_range.1 hr), if_neg (fun e => hne e.symm), zero_mul]
        · intro h; exact absurd hp h

omit [LinearOrder K] in
/-- `Σ (Q Qᵀ v) = v`: coordinates in an orthonormal basis. -/
theorem orth_expand {m : Nat} {q : Nat → Nat → K}
    (h : ∀ i k, i < m → k < m → ∑ l ∈ range m, q l i * q l k = if i = k then 1 else 0) (v : Nat → K) {p : Nat} (hp : p < m) :
    ∑ k ∈ range m, q p k * ∑ i ∈ range m, q i k * v i = v p := by
  calc ∑ k ∈ range m, q p k * ∑ i ∈ range m, q i k * v i
      = ∑ i ∈ range m, (∑ k ∈ range m, q p k * q i k) * v i := by
        simp only [mul_sum, sum_mul]
        rw [sum_comm]
        exact sum_congr rfl fun i _ => sum_congr rfl fun k _ => by ring
    _ = v p := by
        rw [sum_eq_single p]
        · rw [rows_orth h hp hp, if_pos rfl, one_mul]
        · intro r hr hne
          rw [rows_orth h hp (mem_range.1 hr), if_neg (fun e => hne e.symm), zero_mul]
        · intro h; exact absurd (mem_range.2 hp) h

variable [IsStrictOrderedRing K]

/-- A solution of the normal equations minimises. -/
theorem normal_min {s : Finset Nat} {r : Nat} {W : Nat → Nat → K} {e x : Nat → K}
    (h : ∀ c, c < r → ∑ c' ∈ range r, (∑ i ∈ s, W i c * W i c') * x c' = ∑ i ∈ s, W i c * e i) (x' : Nat → K) :
    ∑ i ∈ s, (∑ c ∈ range r, W i c * x c - e i) ^ 2 ≤ ∑ i ∈ s, (∑ c ∈ range r, W i c * x' c - e i) ^ 2 := by
  have hzero : ∑ i ∈ s, (∑ c ∈ range r, W i c * x c - e i) * (∑ c ∈ range r, W i c * (x' c - x c)) = 0 := by
    have h1 : ∀ c ∈ range r, ∑ i ∈ s, (∑ c' ∈ range r, W i c' * x c' - e i) * (W i c * (x' c - x c)) = 0 := by
      intro c hc
      have := h c (mem_range.1 hc)
      have h2 : ∑ i ∈ s, (∑ c' ∈ range r, W i c' * x c' - e i) * W i c = 0 := by
        rw [← sub_eq_zero] at this
        rw [← this]
        simp only [sub_mul, sum_sub_distrib, sum_mul]
        rw [sum_comm]
        congr 1
        · exact sum_congr rfl fun c' _ => sum_congr rfl fun i _ => by ring
        · exact sum_congr rfl fun i _ => by ring
      have h3 : ∑ i ∈ s, (∑ c' ∈ range r, W i c' * x c' - e i) * (W i c * (x' c - x c)) =
          (∑ i ∈ s, (∑ c' ∈ range r, W i c' * x c' - e i) * W i c) * (x' c - x c) := by
        rw [sum_mul]; exact sum_congr rfl fun i _ => by ring
      rw [h3, h2, zero_mul]
    have h4 : ∑ i ∈ s, (∑ c ∈ range r, W i c * x c - e i) * (∑ c ∈ range r, W i c * (x' c - x c)) =
        ∑ c ∈ range r, ∑ i ∈ s, (∑ c' ∈ range r, W i c' * x c' - e i) * (W i c * (x' c - x c)) := by
      rw [sum_comm]
      exact sum_congr rfl fun i _ => by rw [mul_sum]
    rw [h4]
    exact sum_eq_zero h1
  have h5 : ∀ i, (∑ c ∈ range r, W i c * x' c - e i) ^ 2 = (∑ c ∈ range r, W i c * x c - e i) ^ 2 +
      2 * ((∑ c ∈ range r, W i c * x c - e i) * (∑ c ∈ range r, W i c * (x' c - x c))) +
      (∑ c ∈ range r, W i c * (x' c - x c)) ^ 2 := by
    intro i
    have : ∑ c ∈ range r, W i c * (x' c - x c) = ∑ c ∈ range r, W i c * x' c - ∑ c ∈ range r, W i c * x c := by
      rw [← sum_sub_distrib]; exact sum_congr rfl fun c _ => by ring
    rw [this]; ring
  have h6 : ∑ i ∈ s, (∑ c ∈ range r, W i c * x' c - e i) ^ 2 = ∑ i ∈ s, (∑ c ∈ range r, W i c * x c - e i) ^ 2 +
      ∑ i ∈ s, (∑ c ∈ range r, W i c * (x' c - x c)) ^ 2 := by
    rw [sum_congr rfl fun i _ => h5 i, sum_add_distrib, sum_add_distrib, ← mul_sum, hzero, mul_zero, add_zero]
  rw [h6]
  exact le_add_of_nonneg_right (sum_nonneg fun i _ => sq_nonneg _)

/-- The pseudo-inverse by singular values solves consistent normal equations. -/
theorem svd_solves {s : Finset Nat} {r : Nat} {W : Nat → Nat → K} {e : Nat → K} {M : Mat K} {S : Svd K} (hS : IsSvd M S)
    (hr : M.cols = r) (hM : ∀ c c', c < r → c' < r → M.get c c' = ∑ i ∈ s, W i c * W i c') {rank : Nat} (hrank : rank ≤ r)
    (hpos : ∀ k, k < rank → S.sv.getD k 0 ≠ 0) (hzero : ∀ k, rank ≤ k → k < r → S.sv.getD k 0 = 0) {c : Nat} (hc : c < r) :
    ∑ c' ∈ range r, (∑ i ∈ s, W i c * W i c') *
      (∑ k ∈ range rank, S.V.get c' k * (1 / S.sv.getD k 0) * ∑ a ∈ range r, S.U.get a k * ∑ i ∈ s, W i a * e i) =
      ∑ i ∈ s, W i c * e i := by
  obtain ⟨_, _, _, hU, hV, _, _, hprod⟩ := hS
  rw [hr] at hU hV hprod
  -- directions beyond the rank are not seen
  have hdead : ∀ k, rank ≤ k → k < r → ∑ a ∈ range r, S.U.get a k * ∑ i ∈ s, W i a * e i = 0 := by
    intro k hk hkr
    have hq : ∑ i ∈ s, (∑ a ∈ range r, W i a * S.U.get a k) ^ 2 = 0 := by
      have h1 : ∑ i ∈ s, (∑ a ∈ range r, W i a * S.U.get a k) ^ 2 =
          ∑ c' ∈ range r, (∑ a ∈ range r, S.U.get a k * M.get a c') * S.U.get c' k := by
        calc ∑ i ∈ s, (∑ a ∈ range r, W i a * S.U.get a k) ^ 2
            = ∑ i ∈ s, ∑ c' ∈ range r, ∑ a ∈ range r, (S.U.get a k * (W i a * W i c')) * S.U.get c' k := by
              refine sum_congr rfl fun i _ => ?_
              rw [sq, sum_mul_sum, sum_comm]
              exact sum_congr rfl fun c' _ => sum_congr rfl fun a _ => by ring
          _ = ∑ c' ∈ range r, (∑ a ∈ range r, S.U.get a k * M.get a c') * S.U.get c' k := by
              rw [sum_comm]
              refine sum_congr rfl fun c' hc' => ?_
              rw [sum_comm, sum_mul]
              refine sum_congr rfl fun a ha => ?_
              rw [hM a c' (mem_range.1 ha) (mem_range.1 hc'), mul_sum, sum_mul]
      rw [h1]
      refine sum_eq_zero fun c' hc' => ?_
      have h2 : ∑ a ∈ range r, S.U.get a k * M.get a c' = S.sv.getD k 0 * S.V.get c' k := by
        calc ∑ a ∈ range r, S.U.get a k * M.get a c'
            = ∑ k' ∈ range r, (∑ a ∈ range r, S.U.get a k * S.U.get a k') * (S.sv.getD k' 0 * S.V.get c' k') := by
              simp only [sum_mul]
              rw [sum_comm]
              refine sum_congr rfl fun a ha => ?_
              rw [hprod a c' (mem_range.1 ha) (mem_range.1 hc'), mul_sum]
              exact sum_congr rfl fun k' _ => by ring
          _ = S.sv.getD k 0 * S.V.get c' k := by
              rw [sum_eq_single k]
              · rw [hU k k hkr hkr, if_pos rfl, one_mul]
              · intro k' hk' hne
                rw [hU k k' hkr (mem_range.1 hk'), if_neg (fun e => hne e.symm), zero_mul]
              · intro h; exact absurd (mem_range.2 hkr) h
      rw [h2, hzero k hk hkr, zero_mul, zero_mul]
    have hq' : ∀ i ∈ s, ∑ a ∈ range r, W i a * S.U.get a k = 0 := by
      intro i hi
      have := (sum_eq_zero_iff_of_nonneg fun i _ => sq_nonneg _).1 hq i hi
      exact pow_eq_zero_iff (two_ne_zero) |>.1 this
    calc ∑ a ∈ range r, S.U.get a k * ∑ i ∈ s, W i a * e i
        = ∑ i ∈ s, (∑ a ∈ range r, W i a * S.U.get a k) * e i := by
          simp only [mul_sum, sum_mul]
          rw [sum_comm]
          exact sum_congr rfl fun i _ => sum_congr rfl fun a _ => by ring
      _ = 0 := sum_eq_zero fun i hi => by rw [hq' i hi, zero_mul]
  obtain ⟨d, hd⟩ : ∃ d : Nat → K, d = fun a => ∑ i ∈ s, W i a * e i := ⟨_, rfl⟩
  have hd' : ∀ a, ∑ i ∈ s, W i a * e i = d a := fun a => by rw [hd]
  simp only [hd'] at hdead ⊢
  have h3 : ∀ k, k < rank → ∑ c' ∈ range r, M.get c c' * S.V.get c' k = S.U.get c k * S.sv.getD k 0 := by
    intro k hk
    have hkr : k < r := by omega
    calc ∑ c' ∈ range r, M.get c c' * S.V.get c' k
        = ∑ k' ∈ range r, (S.U.get c k' * S.sv.getD k' 0) * ∑ c' ∈ range r, S.V.get c' k' * S.V.get c' k := by
          simp only [mul_sum]
          rw [sum_comm]
          refine sum_congr rfl fun c' hc' => ?_
          rw [hprod c c' hc (mem_range.1 hc'), sum_mul]
          exact sum_congr rfl fun k' _ => by ring
      _ = S.U.get c k * S.sv.getD k 0 := by
          rw [sum_eq_single k]
          · rw [hV k k hkr hkr, if_pos rfl, mul_one]
          · intro k' hk' hne
            rw [hV k' k (mem_range.1 hk') hkr, if_neg hne, mul_zero]
          · intro h; exact absurd (mem_range.2 hkr) h
  calc ∑ c' ∈ range r, (∑ i ∈ s, W i c * W i c') *
        (∑ k ∈ range rank, S.V.get c' k * (1 / S.sv.getD k 0) * ∑ a ∈ range r, S.U.get a k * d a)
      = ∑ k ∈ range rank, (∑ c' ∈ range r, M.get c c' * S.V.get c' k) * ((1 / S.sv.getD k 0) *
          ∑ a ∈ range r, S.U.get a k * d a) := by
        have h4 : ∀ k ∈ range rank, (∑ c' ∈ range r, M.get c c' * S.V.get c' k) * ((1 / S.sv.getD k 0) *
            ∑ a ∈ range r, S.U.get a k * d a) = ∑ c' ∈ range r, M.get c c' *
            (S.V.get c' k * (1 / S.sv.getD k 0) * ∑ a ∈ range r, S.U.get a k * d a) := fun k _ => by
          rw [sum_mul]
          exact sum_congr rfl fun c' _ => by ring
        rw [sum_congr rfl h4, sum_comm]
        refine sum_congr rfl fun c' hc' => ?_
        rw [hM c c' hc (mem_range.1 hc'), mul_sum]
    _ = ∑ k ∈ range rank, S.U.get c k * ∑ a ∈ range r, S.U.get a k * d a := by
        refine sum_congr rfl fun k hk => ?_
        rw [h3 k (mem_range.1 hk)]
        have := hpos k (mem_range.1 hk)
        field_simp
    _ = ∑ k ∈ range r, S.U.get c k * ∑ a ∈ range r, S.U.get a k * d a := by
        refine sum_subset (range_subset_range.2 hrank) fun k hk hk' => ?_
        rw [hdead k (by simpa using hk') (mem_range.1 hk), mul_zero]
    _ = d c := orth_expand hU d hc

end Kalibr.Lin
