import Verif.Lin.Props

/-!
# C118: the information about one group of unknowns

marginalize.cpp.
-/

namespace Kalibr.Lin

open Finset

variable {K : Type} [Field K] [LinearOrder K]

/-- The matrix `marginalJacobian` delivers. -/
theorem marginalJacobian_eq {T : Tools K} {Jx Jt : Mat K} {F : Spqr K} (hqr : T.qr Jx = some F) (hF : Orthonormal Jt.rows F.q)
    (hn : Jx.cols ≤ Jt.rows) : marginalJacobian T Jx Jt.transpose = .ok (without F.q Jx.cols Jt) := by
  have h1 : ¬ Jt.rows < Jx.cols := by omega
  simp only [marginalJacobian, hqr]
  rw [if_neg (show ¬ (Jt.transpose.mul ⟨Jt.transpose.cols, Jt.transpose.cols, F.q⟩).cols < Jx.cols from h1)]
  congr 1
  simp only [without, Mat.mk.injEq, Mat.mul, Mat.transpose, true_and]
  funext c c'
  exact inner_tail hn hF (fun p => Jt.get p c) (fun p => Jt.get p c')

theorem marginalJacobian_raise {T : Tools K} {Jx Jt : Mat K} {F : Spqr K} (hqr : T.qr Jx = some F) (hn : Jt.rows < Jx.cols) :
    marginalJacobian T Jx Jt.transpose = .raise := by
  simp only [marginalJacobian, hqr]
  rw [if_pos (show (Jt.transpose.mul ⟨Jt.transpose.cols, Jt.transpose.cols, F.q⟩).cols < Jx.cols from hn)]

/-- What `marginalize` has computed when it returns. -/
theorem marginalize_ok {T : Tools K} {J : Mat K} {j : Nat} {normTol epsTol : K} {R : Marginal K} {F : Spqr K}
    (h : marginalize T J j normTol epsTol = .ok R) (hqr : T.qr (firstColumns J j) = some F) (hF : Orthonormal J.rows F.q) :
    j ≤ J.cols ∧ j ≤ J.rows ∧ ∃ (S : Svd K) (nrank : Nat), S = T.svd (without F.q j (lastColumns J j)) ∧
      nrank ≤ J.cols - j ∧ (∀ k, k < nrank → S.sv.getD k 0 ≠ 0) ∧ R.Omega = without F.q j (lastColumns J j) ∧
      R.CS = ⟨S.V.rows, nrank, S.V.get⟩ ∧ R.NS = ⟨S.V.rows, J.cols - j - nrank, fun i k => S.V.get i (nrank + k)⟩ ∧
      R.SigmaP = ⟨nrank, nrank, fun i k => if i = k then 1 / S.sv.getD i 0 else 0⟩ ∧
      R.Sigma = ⟨S.V.rows, S.V.rows, fun i k => ∑ l ∈ Finset.range nrank,
          S.V.get i l * (1 / S.sv.getD l 0) * S.V.get k l⟩ ∧ R.logOf = S.sv.take nrank := by
  rw [marginalize] at h
  by_cases hj : J.cols < j
  · rw [if_pos hj] at h; cases h
  rw [if_neg hj] at h
  by_cases hm : J.rows < j
  · have := marginalJacobian_raise (T := T) (Jx := firstColumns J j) (Jt := lastColumns J j) hqr hm
    obtain ⟨O, h1, -⟩ := Out.bind_eq_ok.1 h
    rw [show (⟨J.rows, j, J.get⟩ : Mat K) = firstColumns J j from rfl,
      show (⟨J.rows, J.cols - j, fun i c => J.get i (j + c)⟩ : Mat K) = lastColumns J j from rfl, this] at h1
    cases h1
  have h0 := marginalJacobian_eq (T := T) (Jx := firstColumns J j) (Jt := lastColumns J j) hqr hF (by
    simp only [firstColumns, lastColumns]; omega)
  obtain ⟨O, h1, h⟩ := Out.bind_eq_ok.1 h
  rw [show (⟨J.rows, j, J.get⟩ : Mat K) = firstColumns J j from rfl,
      show (⟨J.rows, J.cols - j, fun i c => J.get i (j + c)⟩ : Mat K) = lastColumns J j from rfl] at h1
  rw [h0] at h1
  simp only [Out.ok.injEq] at h1
  obtain ⟨OS, h2, h⟩ := Out.bind_eq_ok.1 h
  by_cases hs : (T.svd OS).sv = []
  · simp only [if_pos hs] at h; cases h
  simp only [if_neg hs] at h
  obtain ⟨nrank, hnr⟩ : ∃ k, k = rankFrom (T.svd OS).sv ((OS.rows : K) * (T.svd OS).sv.getD 0 0 * epsTol) OS.cols := ⟨_, rfl⟩
  rw [← hnr] at h
  have hle : nrank ≤ J.cols - j := by
    have hOS : OS.cols = J.cols - j := by
      rw [marginalJacobian] at h2
      split at h2
      · cases h2
      · simp only at h2
        split_ifs at h2
        simp only [Out.ok.injEq] at h2
        rw [← h2]
        rfl
    rw [hnr, ← hOS]
    exact rankFrom_le _ _ _
  by_cases hz : ∃ k ∈ List.range nrank, (T.svd O).sv.getD k 0 = 0
  · rw [if_pos hz] at h; cases h
  rw [if_neg hz] at h
  simp only [Out.ok.injEq] at h
  have hO : O.cols = J.cols - j := by rw [← h1]; rfl
  refine ⟨by omega, by omega, T.svd O, nrank, by rw [← h1]; rfl, hle, fun k hk h0 => hz ⟨k, List.mem_range.2 hk, h0⟩, ?_⟩
  rw [← h, hO, ← h1]
  exact ⟨rfl, rfl, rfl, rfl, rfl, rfl⟩

variable [IsStrictOrderedRing K]

/-- **C118, in part** The matrix delivered is the information about the second group of unknowns: the least sum of squares
that the first group can leave of the given values of the second. (It is assumed that the columns of the first group are
independent; `C118_dependent_counterexample`.) -/
theorem C118_information_partial {T : Tools K} {J : Mat K} {j : Nat} {normTol epsTol : K} {R : Marginal K} {F : Spqr K}
    (h : marginalize T J j normTol epsTol = .ok R) (hqr : T.qr (firstColumns J j) = some F) (hF : IsSpqr (firstColumns J j) F) :
    R.Omega.rows = J.cols - j ∧ R.Omega.cols = J.cols - j ∧ IsInformation J j (J.cols - j) R.Omega.get := by
  obtain ⟨-, hm, S, nrank, -, -, -, hO, -⟩ := marginalize_ok h hqr hF.orth
  rw [hO]
  refine ⟨rfl, rfl, information hF hm fun c c' _ _ => ?_⟩
  simp only [without, rot, lastColumns]

/-- **C118, in part** The covariance is the inverse of the information if the rank is full, and a generalised inverse if the
singular values beyond the rank are zero; then the null space is that of the information. The bases of the null space and
of its complement make up one orthonormal basis, in which the covariance is the diagonal matrix delivered. The product of
the singular values whose logarithms are added is the determinant of the information if the rank is full. -/
theorem C118_covariance_partial {T : Tools K} {J : Mat K} {j : Nat} {normTol epsTol : K} {R : Marginal K} {F : Spqr K}
    (h : marginalize T J j normTol epsTol = .ok R) (hqr : T.qr (firstColumns J j) = some F) (hF : IsSpqr (firstColumns J j) F)
    (hS : IsSvd (without F.q j (lastColumns J j)) (T.svd (without F.q j (lastColumns J j)))) :
    -- the bases
    R.CS.cols + R.NS.cols = J.cols - j ∧
    (∀ k l, k < R.CS.cols → l < R.CS.cols → ∑ i ∈ range (J.cols - j), R.CS.get i k * R.CS.get i l = if k = l then 1 else 0) ∧
    (∀ k l, k < R.NS.cols → l < R.NS.cols → ∑ i ∈ range (J.cols - j), R.NS.get i k * R.NS.get i l = if k = l then 1 else 0) ∧
    (∀ k l, k < R.CS.cols → l < R.NS.cols → ∑ i ∈ range (J.cols - j), R.CS.get i k * R.NS.get i l = 0) ∧
    -- the projected covariance
    (∀ k l, k < R.CS.cols → l < R.CS.cols → ∑ a ∈ range (J.cols - j), ∑ b ∈ range (J.cols - j),
      R.CS.get a k * R.Sigma.get a b * R.CS.get b l = R.SigmaP.get k l) ∧
    -- full rank
    (R.CS.cols = J.cols - j → (∀ a b, a < J.cols - j → b < J.cols - j → ∑ l ∈ range (J.cols - j),
      R.Omega.get a l * R.Sigma.get l b = if a = b then 1 else 0) ∧
      (Matrix.of fun a b : Fin (J.cols - j) => R.Omega.get a.1 b.1).det = R.logOf.prod) ∧
    -- the null space
    ((∀ s ∈ (T.svd (without F.q j (lastColumns J j))).sv.drop R.CS.cols, s = 0) →
      (∀ a l, a < J.cols - j → l < R.NS.cols → ∑ b ∈ range (J.cols - j), R.Omega.get a b * R.NS.get b l = 0) ∧
      ∀ a b, a < J.cols - j → b < J.cols - j → ∑ c ∈ range (J.cols - j), (∑ d ∈ range (J.cols - j),
        R.Omega.get a c * R.Sigma.get c d * R.Omega.get d b) = R.Omega.get a b) := by
  obtain ⟨hj, hm, S, nrank, hSe, hr, hpos, hO, hCS, hNS, hSP, hSig, hlog⟩ := marginalize_ok h hqr hF.orth
  rw [← hSe] at hS ⊢
  obtain ⟨r, hrr⟩ : ∃ r, r = J.cols - j := ⟨_, rfl⟩
  have hcols : (without F.q j (lastColumns J j)).cols = r := by rw [hrr]; rfl
  have hV : Orthonormal r S.V.get := by have := hS.V; rwa [hcols] at this
  have hlen : S.sv.length = r := by rw [hS.len, hcols]
  have hOs : ∀ a b, a < r → b < r → R.Omega.get a b = sym r S a b := by
    intro a b ha hb
    rw [hO]
    exact svd_sym (s := Ico j J.rows) (W := rot F (lastColumns J j)) hS hcols (fun c c' _ _ => rfl) ha hb
  rw [← hrr] at hr hNS ⊢
  have hVk : ∀ k a, k < r → a < r → ∑ b ∈ range r, sym r S a b * S.V.get b k = S.V.get a k * S.sv.getD k 0 := by
    intro k a hk ha
    calc ∑ b ∈ range r, sym r S a b * S.V.get b k
        = ∑ l ∈ range r, S.V.get a l * S.sv.getD l 0 * ∑ b ∈ range r, S.V.get b l * S.V.get b k := by
          simp only [sym, sum_mul, mul_sum]
          rw [sum_comm]
          exact sum_congr rfl fun l _ => sum_congr rfl fun b _ => by ring
      _ = _ := by
          rw [sum_eq_single k]
          · rw [hV k k hk hk]; simp
          · intro l hl hlk; rw [hV l k (mem_range.1 hl) hk, if_neg hlk, mul_zero]
          · intro h; exact absurd (mem_range.2 hk) h
  have hSV : ∀ k a, k < nrank → ∑ b ∈ range r, R.Sigma.get a b * S.V.get b k = S.V.get a k * (1 / S.sv.getD k 0) := by
    intro k a hk
    rw [hSig]
    calc ∑ b ∈ range r, (∑ l ∈ range nrank, S.V.get a l * (1 / S.sv.getD l 0) * S.V.get b l) * S.V.get b k
        = ∑ l ∈ range nrank, S.V.get a l * (1 / S.sv.getD l 0) * ∑ b ∈ range r, S.V.get b l * S.V.get b k := by
          simp only [sum_mul, mul_sum]
          rw [sum_comm]
          exact sum_congr rfl fun l _ => sum_congr rfl fun b _ => by ring
      _ = _ := by
          rw [sum_eq_single k]
          · rw [hV k k (by omega) (by omega)]; simp
          · intro l hl hlk; rw [hV l k (by have := mem_range.1 hl; omega) (by omega), if_neg hlk, mul_zero]
          · intro h; exact absurd (mem_range.2 hk) h
  refine ⟨?_, ?_, ?_, ?_, ?_, ?_, ?_⟩
  · rw [hCS, hNS]; simp only; omega
  · rw [hCS]; intro k l hk hl
    simp only at hk hl
    exact hV k l (by omega) (by omega)
  · rw [hNS]; intro k l hk hl
    simp only at hk hl
    have := hV (nrank + k) (nrank + l) (by omega) (by omega)
    simp only [Nat.add_left_cancel_iff] at this
    exact this
  · rw [hCS, hNS]; intro k l hk hl
    simp only at hk hl
    have := hV k (nrank + l) (by omega) (by omega)
    rwa [if_neg (by omega)] at this
  · rw [hCS, hSP]; intro k l hk hl
    simp only at hk hl ⊢
    calc ∑ a ∈ range r, ∑ b ∈ range r, S.V.get a k * R.Sigma.get a b * S.V.get b l
        = ∑ a ∈ range r, S.V.get a k * (S.V.get a l * (1 / S.sv.getD l 0)) := by
          refine sum_congr rfl fun a _ => ?_
          rw [← hSV l a hl, mul_sum]
          exact sum_congr rfl fun b _ => by ring
      _ = (∑ a ∈ range r, S.V.get a k * S.V.get a l) * (1 / S.sv.getD l 0) := by
          rw [sum_mul]; exact sum_congr rfl fun a _ => by ring
      _ = _ := by
          rw [hV k l (by omega) (by omega)]
          by_cases hkl : k = l
          · simp [hkl]
          · simp [hkl]
  · rw [hCS]
    intro hfull
    have hfull : nrank = r := hfull
    subst hfull
    refine ⟨fun a b ha hb => ?_, ?_⟩
    · rw [← sym_inverse hV hpos ha hb]
      refine sum_congr rfl fun l hl => ?_
      rw [hOs a l ha (mem_range.1 hl), hSig]
    · have hmx : (Matrix.of fun a b : Fin nrank => R.Omega.get a.1 b.1) = mx nrank (sym nrank S) := by
        ext a b
        simp only [mx, Matrix.of_apply]
        exact hOs _ _ a.2 b.2
      rw [hmx, sym_det hV, hlog, List.take_of_length_le (by omega)]
      rw [prod_range, ← List.prod_ofFn]
      congr 1
      apply List.ext_getElem
      · simp [hlen]
      · intro i h1 h2
        simp [List.getD, List.getElem?_eq_getElem h2]
  · rw [hCS]
    intro hz
    simp only at hz
    have hz' : ∀ k, nrank ≤ k → k < r → S.sv.getD k 0 = 0 := by
      intro k h1 h2
      apply hz
      rw [List.mem_iff_getElem]
      refine ⟨k - nrank, by rw [List.length_drop]; omega, ?_⟩
      rw [List.getElem_drop]
      simp [List.getD, List.getElem?_eq_getElem (show k < S.sv.length by omega), Nat.add_sub_cancel' h1]
    refine ⟨?_, ?_⟩
    · rw [hNS]; intro a l ha hl
      simp only at hl ⊢
      rw [sum_congr rfl fun b hb => by rw [hOs a b ha (mem_range.1 hb)], hVk (nrank + l) a (by omega) ha,
        hz' (nrank + l) (by omega) (by omega), mul_zero]
    · intro a b ha hb
      have hstep : ∀ d, d < r → ∑ c ∈ range r, R.Omega.get a c * R.Sigma.get c d = ∑ k ∈ range nrank, S.V.get a k * S.V.get d k := by
        intro d hd
        rw [hSig]
        calc ∑ c ∈ range r, R.Omega.get a c * ∑ k ∈ range nrank, S.V.get c k * (1 / S.sv.getD k 0) * S.V.get d k
            = ∑ k ∈ range nrank, (∑ c ∈ range r, sym r S a c * S.V.get c k) * (1 / S.sv.getD k 0) * S.V.get d k := by
              simp only [sum_mul, mul_sum]
              rw [sum_comm]
              refine sum_congr rfl fun k _ => sum_congr rfl fun c hc => ?_
              rw [hOs a c ha (mem_range.1 hc)]
              ring
          _ = _ := by
              refine sum_congr rfl fun k hk => ?_
              have hk := mem_range.1 hk
              rw [hVk k a (by omega) ha]
              have := hpos k hk
              field_simp
      calc ∑ c ∈ range r, (∑ d ∈ range r, R.Omega.get a c * R.Sigma.get c d * R.Omega.get d b)
          = ∑ d ∈ range r, (∑ c ∈ range r, R.Omega.get a c * R.Sigma.get c d) * R.Omega.get d b := by
            rw [sum_comm]
            exact sum_congr rfl fun d _ => by rw [sum_mul]
        _ = ∑ k ∈ range nrank, S.V.get a k * ∑ d ∈ range r, sym r S b d * S.V.get d k := by
            simp only [mul_sum]
            rw [sum_comm]
            refine sum_congr rfl fun d hd => ?_
            have hd := mem_range.1 hd
            rw [hstep d hd, sum_mul]
            refine sum_congr rfl fun k _ => ?_
            rw [hOs d b hd hb]
            have : sym r S d b = sym r S b d := sum_congr rfl fun k _ => by ring
            rw [this]
            ring
        _ = ∑ k ∈ range nrank, S.V.get a k * S.sv.getD k 0 * S.V.get b k := by
            refine sum_congr rfl fun k hk => ?_
            rw [hVk k b (by have := mem_range.1 hk; omega) hb]
            ring
        _ = R.Omega.get a b := by
            rw [hOs a b ha hb, sym, ← sum_range_add_sum_Ico _ hr]
            rw [sum_eq_zero (s := Ico nrank r) fun k hk => by
              rw [hz' k (mem_Ico.1 hk).1 (mem_Ico.1 hk).2]; ring]
            rw [add_zero]

end Kalibr.Lin
