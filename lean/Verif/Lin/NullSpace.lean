import Verif.Lin.Witness

/-!
# C117: the null space that is reported
-/

namespace Kalibr.Lin

open Finset

variable {K : Type} [Field K] [LinearOrder K] [IsStrictOrderedRing K]

omit [IsStrictOrderedRing K] in
/-- **C117, the null space.** After an analysis with rank `r` the null space has as many columns as there are directions without
information, they are orthonormal, and the matrix that describes the information takes each of them to its multiple by one of the
singular values after the first `r`: to zero, if these are zero. -/
theorem C117_null_space {T : Tools K} {o : Options K} {st st' : State K} {A : Mat K} {n r : Nat} {F : Spqr K}
    (h : analyzeMarginal T o st A n = .ok st') (hqr : T.qr (firstColumns A n) = some F) (hF : Orthonormal A.rows F.q)
    (hS : IsSvd (without F.q (n + 1) (lastColumns A n)) (T.svd (without F.q (n + 1) (lastColumns A n))))
    (hr : st'.svdRank = r) (hr' : r ≤ A.cols - n) :
    (getNullSpace st').rows = A.cols - n ∧ (getNullSpace st').cols = A.cols - n - r ∧
    (∀ k l, k < A.cols - n - r → l < A.cols - n - r →
      ∑ i ∈ range (A.cols - n), (getNullSpace st').get i k * (getNullSpace st').get i l = if k = l then 1 else 0) ∧
    ∀ k i, k < A.cols - n - r → i < A.cols - n →
      ∑ j ∈ range (A.cols - n), (∑ m ∈ range (A.cols - n), st'.V.get i m * st'.sv.getD m 0 * st'.V.get j m) * (getNullSpace st').get j k =
        st'.sv.getD (r + k) 0 * (getNullSpace st').get i k := by
  obtain ⟨-, -, -, S, hSe, e1, -, e3, -, -⟩ := analyze_ok h hqr hF
  rw [← hSe] at hS
  have hc : (without F.q (n + 1) (lastColumns A n)).cols = A.cols - n := rfl
  have hV := hS.V
  have hVs := hS.Vsize
  rw [hc] at hV hVs
  have e : getNullSpace st' = ⟨A.cols - n, A.cols - n - r, fun i k => S.V.get i (r + k)⟩ := by
    unfold getNullSpace
    rw [hr, e3, hVs.1, hVs.2, if_pos ⟨by omega, by omega⟩, Int.toNat_natCast]
    congr 1
    omega
  rw [e, e1, e3]
  refine ⟨rfl, rfl, fun k l hk hl => ?_, fun k i hk hi => ?_⟩
  · refine (hV (r + k) (r + l) (by omega) (by omega)).trans ?_
    by_cases hkl : k = l
    · rw [if_pos hkl, if_pos (by omega)]
    · rw [if_neg hkl, if_neg (by omega)]
  · simp only [sum_mul]
    rw [sum_comm]
    have : ∀ m ∈ range (A.cols - n), ∑ j ∈ range (A.cols - n), S.V.get i m * S.sv.getD m 0 * S.V.get j m * S.V.get j (r + k) =
        if m = r + k then S.V.get i m * S.sv.getD m 0 else 0 := by
      intro m hm
      rw [mem_range] at hm
      have hv := hV m (r + k) hm (by omega)
      rw [show (∑ j ∈ range (A.cols - n), S.V.get i m * S.sv.getD m 0 * S.V.get j m * S.V.get j (r + k)) =
        S.V.get i m * S.sv.getD m 0 * ∑ j ∈ range (A.cols - n), S.V.get j m * S.V.get j (r + k) by
          rw [mul_sum]
          exact sum_congr rfl fun j _ => by ring, hv]
      by_cases hmk : m = r + k
      · rw [if_pos hmk, if_pos hmk, mul_one]
      · rw [if_neg hmk, if_neg hmk, mul_zero]
    rw [sum_congr rfl this, sum_ite_eq', if_pos (mem_range.2 (by omega)), mul_comm]

/-- The hypotheses are met by the analysis of the witness. -/
example : ∃ (T : Tools ℚ) (o : Options ℚ) (A : Mat ℚ) (F : Spqr ℚ) (st : State ℚ), analyzeMarginal T o cleared A 1 = .ok st ∧
    T.qr (firstColumns A 1) = some F ∧ Orthonormal A.rows F.q ∧
    IsSvd (without F.q 2 (lastColumns A 1)) (T.svd (without F.q 2 (lastColumns A 1))) ∧ st.svdRank = (1 : Nat) ∧ 1 ≤ A.cols - 1 := by
  obtain ⟨st, h, h1, -⟩ := wA_analyze
  exact ⟨wT, wO, wA 2, _, st, h, rfl, (wA_spqr' 2).orth, wA_svd' 2 _, by simpa using h1, by decide⟩

end Kalibr.Lin
