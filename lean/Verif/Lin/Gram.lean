import Verif.Lin.Lemmas
import Mathlib.LinearAlgebra.Matrix.Trace
import Mathlib.LinearAlgebra.Matrix.Determinant.Basic

/-!
# Symmetric matrices and their singular value decompositions
-/

namespace Kalibr.Lin

open Finset Matrix

variable {K : Type} [Field K] [LinearOrder K] [IsStrictOrderedRing K]

/-- Square roots of positive semidefinite matrices are unique. -/
theorem polar {r : Nat} {Ω P : Matrix (Fin r) (Fin r) K} (hΩs : Ωᵀ = Ω) (hPs : Pᵀ = P) (h2 : Ω * Ω = P * P)
    (hΩ : ∀ v, 0 ≤ v ⬝ᵥ (Ω *ᵥ v) ∧ (v ⬝ᵥ (Ω *ᵥ v) = 0 → Ω *ᵥ v = 0))
    (hP : ∀ v, 0 ≤ v ⬝ᵥ (P *ᵥ v) ∧ (v ⬝ᵥ (P *ᵥ v) = 0 → P *ᵥ v = 0)) : Ω = P := by
  obtain ⟨D, hD⟩ : ∃ D, D = Ω - P := ⟨_, rfl⟩
  have hDs : Dᵀ = D := by rw [hD, transpose_sub, hΩs, hPs]
  have h3 : Ω * D = -(D * P) := by
    have : Ω * D + D * P = 0 := by
      rw [hD, Matrix.mul_sub, Matrix.sub_mul, h2]; abel
    exact eq_neg_of_add_eq_zero_left this
  have hentry : ∀ (M : Matrix (Fin r) (Fin r) K) j, (D * M * D) j j = (fun i => D i j) ⬝ᵥ (M *ᵥ fun i => D i j) := by
    intro M j
    rw [Matrix.mul_assoc, Matrix.mul_apply]
    simp only [dotProduct]
    refine sum_congr rfl fun i _ => ?_
    have : D j i = D i j := congrFun (congrFun hDs i) j
    rw [this]
    rfl
  have htr : Matrix.trace (D * Ω * D) = -Matrix.trace (D * P * D) := by
    rw [Matrix.mul_assoc, h3, Matrix.mul_neg, Matrix.trace_neg, ← Matrix.mul_assoc, ← Matrix.trace_mul_comm D (D * P),
      Matrix.mul_assoc]
  have h4 : ∀ M : Matrix (Fin r) (Fin r) K, (∀ v, 0 ≤ v ⬝ᵥ (M *ᵥ v)) → 0 ≤ Matrix.trace (D * M * D) := by
    intro M hM
    rw [Matrix.trace]
    exact sum_nonneg fun j _ => by rw [Matrix.diag_apply, hentry]; exact hM _
  have h5 : ∀ M : Matrix (Fin r) (Fin r) K, (∀ v, 0 ≤ v ⬝ᵥ (M *ᵥ v) ∧ (v ⬝ᵥ (M *ᵥ v) = 0 → M *ᵥ v = 0)) →
      Matrix.trace (D * M * D) = 0 → M * D = 0 := by
    intro M hM h
    rw [Matrix.trace] at h
    have h6 := (sum_eq_zero_iff_of_nonneg fun j _ => by rw [Matrix.diag_apply, hentry]; exact (hM _).1).1 h
    ext i j
    have h7 := h6 j (mem_univ j)
    rw [Matrix.diag_apply, hentry] at h7
    exact congrFun ((hM _).2 h7) i
  have a1 := h4 Ω fun v => (hΩ v).1
  have a2 := h4 P fun v => (hP v).1
  have b1 := h5 Ω hΩ (by linarith)
  have b2 := h5 P hP (by linarith)
  have hDD : D * D = 0 := by
    conv_lhs => rw [show D * D = (Ω - P) * D by rw [← hD]]
    rw [Matrix.sub_mul, b1, b2, sub_zero]
  have hD0 : D = 0 := by
    ext i j
    have := congrFun (congrFun hDD j) j
    rw [Matrix.mul_apply] at this
    have hsq : ∑ k, D k j * D k j = 0 := by
      refine Eq.trans (sum_congr rfl fun k _ => ?_) this
      rw [show D j k = D k j from congrFun (congrFun hDs k) j]
    have := (sum_eq_zero_iff_of_nonneg fun k _ => mul_self_nonneg _).1 hsq i (mem_univ i)
    exact mul_self_eq_zero.1 this
  rw [hD] at hD0
  exact sub_eq_zero.1 hD0

/-- The matrices of a decomposition. -/
def mx (r : Nat) (f : Nat → Nat → K) : Matrix (Fin r) (Fin r) K := Matrix.of fun i j => f i.1 j.1

omit [LinearOrder K] [IsStrictOrderedRing K] in
theorem mx_orth {r : Nat} {q : Nat → Nat → K}
    (h : ∀ i k, i < r → k < r → ∑ l ∈ range r, q l i * q l k = if i = k then 1 else 0) : (mx r q)ᵀ * mx r q = 1 := by
  ext i k
  rw [Matrix.mul_apply, Matrix.one_apply]
  have := h i k i.2 k.2
  rw [Finset.sum_range] at this
  simp only [Matrix.transpose_apply, mx, Fin.ext_iff, Matrix.of_apply]
  exact this

/-- The matrix with the singular values `sv` and the vectors `V` on both sides. -/
def sym (r : Nat) (S : Svd K) (i j : Nat) : K := ∑ k ∈ range r, S.V.get i k * S.sv.getD k 0 * S.V.get j k

omit [IsStrictOrderedRing K] in
theorem mx_sym (r : Nat) (S : Svd K) :
    mx r (sym r S) = mx r S.V.get * Matrix.diagonal (fun k : Fin r => S.sv.getD k.1 0) * (mx r S.V.get)ᵀ := by
  ext i j
  rw [Matrix.mul_apply]
  simp only [mx, sym, Matrix.of_apply, Matrix.mul_diagonal, Matrix.transpose_apply]
  rw [Finset.sum_range]

/-- For a symmetric positive semidefinite matrix the two factors are interchangeable. -/
theorem svd_sym {s : Finset Nat} {r : Nat} {W : Nat → Nat → K} {M : Mat K} {S : Svd K} (hS : IsSvd M S) (hr : M.cols = r)
    (hM : ∀ c c', c < r → c' < r → M.get c c' = ∑ i ∈ s, W i c * W i c') {i j : Nat} (hi : i < r) (hj : j < r) :
    M.get i j = sym r S i j := by
  obtain ⟨_, _, _, hU, hV, hnn, _, hprod⟩ := hS
  rw [hr] at hU hV hprod hnn
  obtain ⟨D, hD⟩ : ∃ D, D = Matrix.diagonal (fun k : Fin r => S.sv.getD k.1 0) := ⟨_, rfl⟩
  have hΩ : mx r M.get = mx r S.U.get * D * (mx r S.V.get)ᵀ := by
    ext i j
    rw [Matrix.mul_apply, hD]
    simp only [mx, Matrix.of_apply, Matrix.mul_diagonal, Matrix.transpose_apply]
    rw [hprod i.1 j.1 i.2 j.2, Finset.sum_range]
  have hPe := mx_sym r S
  rw [← hD] at hPe
  have hDs : Dᵀ = D := by rw [hD, Matrix.diagonal_transpose]
  have hΩs : (mx r M.get)ᵀ = mx r M.get := by
    ext i j
    simp only [mx, Matrix.transpose_apply, Matrix.of_apply]
    rw [hM j.1 i.1 j.2 i.2, hM i.1 j.1 i.2 j.2]
    exact sum_congr rfl fun k _ => mul_comm _ _
  have hPs : (mx r (sym r S))ᵀ = mx r (sym r S) := by
    rw [hPe, Matrix.transpose_mul, Matrix.transpose_mul, Matrix.transpose_transpose, hDs, Matrix.mul_assoc]
  have hsq : mx r M.get * mx r M.get = mx r (sym r S) * mx r (sym r S) := by
    have e1 : mx r M.get * mx r M.get = (mx r M.get)ᵀ * mx r M.get := by rw [hΩs]
    have hUU := mx_orth hU
    have hVV := mx_orth hV
    rw [e1, hΩ, hPe]
    obtain ⟨U, hUe⟩ : ∃ U, U = mx r S.U.get := ⟨_, rfl⟩
    obtain ⟨V, hVe⟩ : ∃ V, V = mx r S.V.get := ⟨_, rfl⟩
    rw [← hUe] at hUU ⊢
    rw [← hVe] at hVV ⊢
    rw [Matrix.transpose_mul, Matrix.transpose_mul, Matrix.transpose_transpose, hDs]
    have e2 : V * (D * Uᵀ) * (U * D * Vᵀ) = V * D * (Uᵀ * U) * D * Vᵀ := by simp only [Matrix.mul_assoc]
    have e3 : V * D * Vᵀ * (V * D * Vᵀ) = V * D * (Vᵀ * V) * D * Vᵀ := by simp only [Matrix.mul_assoc]
    rw [e2, e3, hUU, hVV]
  have hquad : ∀ (N : Finset Nat) (a : Nat → K) (w : Nat → Nat → K) (B : Matrix (Fin r) (Fin r) K), (∀ k ∈ N, 0 ≤ a k) →
      (∀ i j : Fin r, B i j = ∑ k ∈ N, w i.1 k * a k * w j.1 k) →
      ∀ v, 0 ≤ v ⬝ᵥ (B *ᵥ v) ∧ (v ⬝ᵥ (B *ᵥ v) = 0 → B *ᵥ v = 0) := by
    intro N a w B ha hB v
    have e1 : ∀ i, (B *ᵥ v) i = ∑ k ∈ N, w i.1 k * a k * ∑ j : Fin r, w j.1 k * v j := by
      intro i
      rw [Matrix.mulVec, dotProduct]
      simp only [hB, sum_mul, mul_sum]
      rw [sum_comm]
      exact sum_congr rfl fun k _ => sum_congr rfl fun j _ => by ring
    have e2 : v ⬝ᵥ (B *ᵥ v) = ∑ k ∈ N, a k * (∑ j : Fin r, w j.1 k * v j) ^ 2 := by
      rw [dotProduct]
      simp only [e1, mul_sum]
      rw [sum_comm]
      refine sum_congr rfl fun k _ => ?_
      rw [sq, sum_mul_sum, mul_sum]
      refine sum_congr rfl fun i _ => ?_
      rw [mul_sum]
      exact sum_congr rfl fun j _ => by ring
    have hnn : ∀ k ∈ N, 0 ≤ a k * (∑ j : Fin r, w j.1 k * v j) ^ 2 := fun k hk => mul_nonneg (ha k hk) (sq_nonneg _)
    refine ⟨by rw [e2]; exact sum_nonneg hnn, fun h => ?_⟩
    rw [e2] at h
    have h' := (sum_eq_zero_iff_of_nonneg hnn).1 h
    ext i
    rw [e1]
    refine sum_eq_zero fun k hk => ?_
    rcases mul_eq_zero.1 (h' k hk) with h0 | h0
    · rw [h0]; ring
    · rw [pow_eq_zero_iff two_ne_zero |>.1 h0, mul_zero]
  have key := polar hΩs hPs hsq
    (hquad s (fun _ => 1) (fun c i => W i c) _ (fun _ _ => zero_le_one) fun i j => by
      simp only [mx, Matrix.of_apply]
      rw [hM i.1 j.1 i.2 j.2]
      exact sum_congr rfl fun k _ => by ring)
    (hquad (range r) (fun k => S.sv.getD k 0) S.V.get _ (fun k hk => hnn k (mem_range.1 hk)) fun i j => by
      simp only [mx, sym, Matrix.of_apply])
  exact congrFun (congrFun key ⟨i, hi⟩) ⟨j, hj⟩

/-- The reciprocal singular values give the inverse. -/
theorem sym_inverse {r : Nat} {S : Svd K} (hV : Orthonormal r S.V.get) (hpos : ∀ k, k < r → S.sv.getD k 0 ≠ 0) {i j : Nat}
    (hi : i < r) (hj : j < r) :
    ∑ l ∈ range r, sym r S i l * (∑ k ∈ range r, S.V.get l k * (1 / S.sv.getD k 0) * S.V.get j k) =
      if i = j then 1 else 0 := by
  have h : mx r (sym r S) * mx r (fun a c => ∑ k ∈ range r, S.V.get a k * (1 / S.sv.getD k 0) * S.V.get c k) = 1 := by
    have e : mx r (fun a c => ∑ k ∈ range r, S.V.get a k * (1 / S.sv.getD k 0) * S.V.get c k) =
        mx r S.V.get * Matrix.diagonal (fun k : Fin r => 1 / S.sv.getD k.1 0) * (mx r S.V.get)ᵀ := by
      ext a c
      rw [Matrix.mul_apply]
      simp only [mx, Matrix.of_apply, Matrix.mul_diagonal, Matrix.transpose_apply]
      rw [Finset.sum_range]
    have hVV := mx_orth hV
    rw [mx_sym, e]
    obtain ⟨V, hVe⟩ : ∃ V, V = mx r S.V.get := ⟨_, rfl⟩
    rw [← hVe] at hVV ⊢
    obtain ⟨D, hD⟩ : ∃ D, D = Matrix.diagonal (fun k : Fin r => S.sv.getD k.1 0) := ⟨_, rfl⟩
    obtain ⟨E, hE⟩ : ∃ E, E = Matrix.diagonal (fun k : Fin r => 1 / S.sv.getD k.1 0) := ⟨_, rfl⟩
    rw [← hD, ← hE]
    have e2 : V * D * Vᵀ * (V * E * Vᵀ) = V * (D * (Vᵀ * V) * E) * Vᵀ := by simp only [Matrix.mul_assoc]
    have hDE : D * E = 1 := by
      rw [hD, hE, Matrix.diagonal_mul_diagonal, ← Matrix.diagonal_one]
      congr 1
      ext k
      have := hpos k.1 k.2
      field_simp
    rw [e2, hVV, Matrix.mul_one, hDE, Matrix.mul_one, mul_eq_one_comm.1 hVV]
  have := congrFun (congrFun h ⟨i, hi⟩) ⟨j, hj⟩
  rw [Matrix.mul_apply, Matrix.one_apply] at this
  rw [Finset.sum_range]
  simpa [mx, Fin.ext_iff] using this

omit [IsStrictOrderedRing K] in
/-- The determinant is the product of the singular values. -/
theorem sym_det {r : Nat} {S : Svd K} (hV : Orthonormal r S.V.get) :
    (mx r (sym r S)).det = ∏ k ∈ range r, S.sv.getD k 0 := by
  have hVV := mx_orth hV
  have hd := congrArg Matrix.det hVV
  rw [Matrix.det_mul, Matrix.det_transpose, Matrix.det_one] at hd
  rw [mx_sym, Matrix.det_mul, Matrix.det_mul, Matrix.det_transpose, Matrix.det_diagonal, mul_right_comm, hd, one_mul,
    Finset.prod_range]

end Kalibr.Lin
