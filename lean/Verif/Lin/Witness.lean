import Verif.Lin.Marginal
import Mathlib.Tactic.IntervalCases

/-!
# Examples for C117 and C118
-/

namespace Kalibr.Lin

open Finset

/-- Libraries good enough for the diagonal matrices below. -/
def wT : Tools ℚ where
  sqrt := id
  qr M := some ⟨fun i k => if i = k then 1 else 0, fun d c => d c / M.get c c⟩
  svd M := ⟨(List.range M.cols).map fun k => M.get k k,
    ⟨M.cols, M.cols, fun i k => if i = k then 1 else 0⟩, ⟨M.cols, M.cols, fun i k => if i = k then 1 else 0⟩⟩
  nnz M := ((List.range M.cols).map fun c => ((List.range M.rows).filter fun i => M.get i c ≠ 0).length).sum

def wO : Options ℚ := ⟨false, 0, 1 / 1000, -1⟩

/-- The orthogonal factor of `wT`. -/
def wF (M : Mat ℚ) : Spqr ℚ := ⟨fun i k => if i = k then 1 else 0, fun d c => d c / M.get c c⟩

theorem wF_orth (m : Nat) (M : Mat ℚ) : Orthonormal m (wF M).q := by
  intro i k hi hk
  simp only [wF]
  rw [sum_eq_single i]
  · simp
  · intro l _ hl; simp [hl]
  · intro h; exact absurd (mem_range.2 hi) h

/-- One column, with an entry at the top only. -/
theorem wF_spqr {M : Mat ℚ} (hc : M.cols = 1) (hr : 0 < M.rows) (h0 : M.get 0 0 ≠ 0) (hz : ∀ i, 1 ≤ i → i < M.rows → M.get i 0 = 0) :
    IsSpqr M (wF M) := by
  have e : ∀ i c, i < M.rows → ∑ l ∈ range M.rows, (wF M).q l i * M.get l c = M.get i c := by
    intro i c hi
    rw [sum_eq_single i]
    · simp [wF]
    · intro l _ hl; simp [wF, hl]
    · intro h; exact absurd (mem_range.2 hi) h
  refine ⟨wF_orth _ _, fun i c h1 h2 h3 => ?_, fun d i hi => ?_⟩
  · rw [e i c h2]
    obtain rfl : c = 0 := by omega
    exact hz i (by omega) h2
  · obtain rfl : i = 0 := by omega
    rw [hc, sum_range_one, e 0 0 hr]
    simp only [wF]
    field_simp

/-- A diagonal matrix with its entries in order. -/
theorem wT_svd {M : Mat ℚ} (hd : ∀ i j, i < M.cols → j < M.cols → i ≠ j → M.get i j = 0)
    (hn : ∀ k, k < M.cols → 0 ≤ M.get k k) (hs : ∀ k l, k ≤ l → l < M.cols → M.get l l ≤ M.get k k) : IsSvd M (wT.svd M) := by
  have e : ∀ k, k < M.cols → (wT.svd M).sv.getD k 0 = M.get k k := by
    intro k hk
    simp [wT, List.getD, List.getElem?_map, List.getElem?_range hk]
  have ho : Orthonormal M.cols (fun i k => if i = k then (1 : ℚ) else 0) := wF_orth M.cols M
  refine ⟨by simp [wT], ⟨rfl, rfl⟩, ⟨rfl, rfl⟩, ho, ho, fun k hk => by rw [e k hk]; exact hn k hk, fun k l hkl hl => ?_,
    fun i j hi hj => ?_⟩
  · rw [e k (by omega), e l hl]; exact hs k l hkl hl
  · rw [sum_eq_single i]
    · rw [e i hi]
      by_cases hij : i = j
      · simp [wT, hij]
      · simp [wT, Ne.symm hij, hd i j hi hj hij]
    · intro k _ hk; simp [wT, Ne.symm hk]
    · intro h; exact absurd (mem_range.2 hi) h

/-- Three equations in two unknowns: the second and the third are in the second unknown only. -/
def wA (a : ℚ) : Mat ℚ := Mat.ofRows 3 2 [[1, 0], [0, a], [0, 1]]

def wb : Mat ℚ := Mat.ofRows 3 1 [[0], [1], [3]]

theorem wA_qr (a : ℚ) : wT.qr (leftPart wT wO (wA a) 1) = some (wF (leftPart wT wO (wA a) 1)) := rfl

theorem wA_spqr (a : ℚ) : IsSpqr (leftPart wT wO (wA a) 1) (wF (leftPart wT wO (wA a) 1)) := by
  refine wF_spqr rfl (by show 0 < 3; omega) ?_ ?_
  · simp [leftPart, wA, Mat.ofRows, scaleOf, wO]
  · intro i h1 (h2 : i < 3)
    interval_cases i <;> simp [leftPart, wA, Mat.ofRows, scaleOf, wO]

theorem wA_svd (a : ℚ) (F : Spqr ℚ) : IsSvd (without F.q 2 (rightPart wT wO (wA a) 1)) (wT.svd (without F.q 2 (rightPart wT wO (wA a) 1))) := by
  refine wT_svd ?_ ?_ ?_
  · intro i j (hi : i < 1) (hj : j < 1) hij; omega
  · intro k _; simp only [without]; exact sum_nonneg fun i _ => mul_self_nonneg _
  · intro k l hkl (hl : l < 1)
    obtain rfl : k = l := by omega
    exact le_rfl

theorem wA_solve : ∃ r, solve wT wO (wA 0) wb 1 = .ok r ∧ (r.1.svdRank = 1 ∧ r.2 0 = 0 ∧ r.2 1 = 3) := by
  obtain ⟨r, h, h1⟩ := Out.okAnd_spec (x := solve wT wO (wA 0) wb 1)
    (P := fun r => decide (r.1.svdRank = 1 ∧ r.2 0 = 0 ∧ r.2 1 = 3)) (by decide +kernel)
  exact ⟨r, h, of_decide_eq_true h1⟩

theorem wA_solve1 : ∃ r, solve wT wO (wA 1) wb 1 = .ok r ∧ (r.1.svdRank = 1 ∧ r.2 0 = 0 ∧ r.2 1 = 3) := by
  obtain ⟨r, h, h1⟩ := Out.okAnd_spec (x := solve wT wO (wA 1) wb 1)
    (P := fun r => decide (r.1.svdRank = 1 ∧ r.2 0 = 0 ∧ r.2 1 = 3)) (by decide +kernel)
  exact ⟨r, h, of_decide_eq_true h1⟩

/-- The hypotheses of `C117_solve_partial` hold, with the component left out one that the unknowns do not act on. -/
example : ∃ st x, solve wT wO (wA 0) wb 1 = .ok (st, x) ∧ x 1 = 3 ∧ ∀ x', cost (wA 0) wb x ≤ cost (wA 0) wb x' := by
  obtain ⟨⟨st, x⟩, h, h1, h2, h3⟩ := wA_solve
  refine ⟨st, x, h, h3, (C117_solve_partial (n := 1) h (wA_qr 0) (wA_spqr 0) (wA_svd 0 _) ?_ ?_).2 ?_⟩
  · intro c _; simp [scaleOf, wO]
  · intro k hk hk'
    rw [h1] at hk
    have hk' : k < 1 := hk'
    simp at hk; omega
  · intro c h1 (h2 : c < 2)
    obtain rfl : c = 1 := by omega
    show ∑ l ∈ range 3, _ = _
    simp [sum_range_succ, wF, wA, Mat.ofRows]

/-- **C117** The step delivered is not a least squares solution: of the three equations `x = 0`, `y = 1`, `y = 3` the second is
lost, and `y = 3` is found (with the orthogonal factor the identity). -/
theorem C117_solve_counterexample : ∃ (T : Tools ℚ) (o : Options ℚ) (A b : Mat ℚ) (F : Spqr ℚ) (st : State ℚ) (x x' : Nat → ℚ),
    solve T o A b 1 = .ok (st, x) ∧ T.qr (leftPart T o A 1) = some F ∧ IsSpqr (leftPart T o A 1) F ∧
    IsSvd (without F.q 2 (rightPart T o A 1)) (T.svd (without F.q 2 (rightPart T o A 1))) ∧
    (∀ c, c < A.cols → scaleOf T o A c ≠ 0) ∧ (∀ k, st.svdRank.toNat ≤ k → k < A.cols - 1 → st.sv.getD k 0 = 0) ∧
    cost A b x' < cost A b x := by
  obtain ⟨⟨st, x⟩, h, h1, h2, h3⟩ := wA_solve1
  refine ⟨wT, wO, wA 1, wb, _, st, x, fun c => if c = 1 then 2 else 0, h, wA_qr 1, wA_spqr 1, wA_svd 1 _, ?_, ?_, ?_⟩
  · intro c _; simp [scaleOf, wO]
  · intro k hk hk'
    rw [h1] at hk
    have hk' : k < 1 := hk'
    simp at hk; omega
  · simp only at h2 h3
    simp only [cost, show (wA 1).rows = 3 from rfl, show (wA 1).cols = 2 from rfl]
    simp [sum_range_succ, wA, wb, Mat.ofRows, h2, h3]
    norm_num

/-- The hypotheses of `C117_square_counterexample`: the identity matrix. -/
example (b : Mat ℚ) (st : State ℚ) (x : Nat → ℚ) : solve wT wO (Mat.ofRows 2 2 [[1, 0], [0, 1]]) b 1 ≠ .ok (st, x) := by
  refine C117_square_counterexample (n := 1) (F := wF (leftPart wT wO (Mat.ofRows 2 2 [[1, 0], [0, 1]]) 1)) rfl rfl ?_ ?_ st x
  · refine wF_spqr rfl (by show 0 < 2; omega) ?_ ?_
    · simp [leftPart, Mat.ofRows, scaleOf, wO]
    · intro i h1 (h2 : i < 2)
      interval_cases i; simp [leftPart, Mat.ofRows, scaleOf, wO]
  · refine wT_svd ?_ ?_ ?_
    · intro i j (hi : i < 1) (hj : j < 1) hij; omega
    · intro k _; simp only [without]; exact sum_nonneg fun i _ => mul_self_nonneg _
    · intro k l hkl (hl : l < 1)
      obtain rfl : k = l := by omega
      exact le_rfl

theorem wA_spqr' (a : ℚ) : IsSpqr (firstColumns (wA a) 1) (wF (firstColumns (wA a) 1)) := by
  refine wF_spqr rfl (by show 0 < 3; omega) ?_ ?_
  · simp [firstColumns, wA, Mat.ofRows]
  · intro i h1 (h2 : i < 3)
    interval_cases i <;> simp [firstColumns, wA, Mat.ofRows]

theorem wA_svd' (a : ℚ) (F : Spqr ℚ) : IsSvd (without F.q 2 (lastColumns (wA a) 1)) (wT.svd (without F.q 2 (lastColumns (wA a) 1))) := by
  refine wT_svd ?_ ?_ ?_
  · intro i j (hi : i < 1) (hj : j < 1) hij; omega
  · intro k _; simp only [without]; exact sum_nonneg fun i _ => mul_self_nonneg _
  · intro k l hkl (hl : l < 1)
    obtain rfl : k = l := by omega
    exact le_rfl

theorem wA_analyze : ∃ st, analyzeMarginal wT wO cleared (wA 2) 1 = .ok st ∧
    (st.svdRank = 1 ∧ st.sv = [1] ∧ st.V.get 0 0 = 1 ∧ (getCovariance st).get 0 0 = 1) := by
  obtain ⟨r, h, h1⟩ := Out.okAnd_spec (x := analyzeMarginal wT wO cleared (wA 2) 1)
    (P := fun st => decide (st.svdRank = 1 ∧ st.sv = [1] ∧ st.V.get 0 0 = 1 ∧ (getCovariance st).get 0 0 = 1)) (by decide +kernel)
  exact ⟨r, h, of_decide_eq_true h1⟩

/-- The hypotheses of `C117_information_partial`. -/
example : ∃ st, analyzeMarginal wT wO cleared (wA 2) 1 = .ok st ∧ IsInformation (wA 2) 1 1 (fun i j =>
    ∑ k ∈ range 1, st.V.get i k * st.sv.getD k 0 * st.V.get j k +
      (∑ l ∈ range 3, (if l = 1 then 1 else 0) * (wA 2).get l (1 + i)) * ∑ l ∈ range 3, (if l = 1 then 1 else 0) * (wA 2).get l (1 + j)) := by
  obtain ⟨st, h, -⟩ := wA_analyze
  exact ⟨st, h, (C117_information_partial (n := 1) h rfl (wA_spqr' 2) (wA_svd' 2 _)).1⟩

/-- **C117** The information and the covariance are wrong: the equations `2 y = .`, `y = .` carry the information 5 about `y`
and the solver has 1. -/
theorem C117_information_counterexample : ∃ (T : Tools ℚ) (o : Options ℚ) (A : Mat ℚ) (F : Spqr ℚ) (st : State ℚ),
    analyzeMarginal T o cleared A 1 = .ok st ∧ T.qr (firstColumns A 1) = some F ∧ IsSpqr (firstColumns A 1) F ∧
    IsSvd (without F.q 2 (lastColumns A 1)) (T.svd (without F.q 2 (lastColumns A 1))) ∧
    IsInformation A 1 1 (fun _ _ => 5) ∧ st.sv = [1] ∧ (getCovariance st).get 0 0 = 1 := by
  obtain ⟨st, h, h1, h2, h3, h4⟩ := wA_analyze
  refine ⟨wT, wO, wA 2, _, st, h, rfl, wA_spqr' 2, wA_svd' 2 _, ?_, h2, h4⟩
  refine information (wA_spqr' 2) (by show 1 ≤ 3; omega) ?_
  intro c c' hc hc'
  obtain rfl : c = 0 := by omega
  obtain rfl : c' = 0 := by omega
  show (5 : ℚ) = ∑ i ∈ Ico 1 3, (∑ l ∈ range 3, _) * (∑ l ∈ range 3, _)
  rw [sum_Ico_eq_sum_range]
  simp [sum_range_succ, wF, wA, Mat.ofRows]
  norm_num

/-- A matrix with the same first column, and two unknowns in the second group. -/
def wB : Mat ℚ := Mat.ofRows 4 3 [[1, 0, 0], [0, 0, 0], [0, 2, 0], [0, 0, 1]]

def wB1 : Mat ℚ := Mat.ofRows 4 2 [[1, 0], [0, 0], [0, 1], [0, 0]]

/-- **C117** An analysis keeps the rank found in the one before, even though the matrix is another: both unknowns are
determined, and the covariance of one of them is zero. -/
theorem C117_rank_counterexample : ∃ (T : Tools ℚ) (o : Options ℚ) (A A' : Mat ℚ) (st st' st'' : State ℚ),
    analyzeMarginal T o cleared A 1 = .ok st ∧ analyzeMarginal T o st A' 1 = .ok st' ∧
    analyzeMarginal T o cleared A' 1 = .ok st'' ∧ st''.svdRank = 2 ∧ (getCovariance st'').get 1 1 = 1 ∧
    st'.sv = st''.sv ∧ st'.svdRank = 1 ∧ (getCovariance st').get 1 1 = 0 := by
  obtain ⟨⟨st, st', st''⟩, h, h1⟩ := Out.okAnd_spec (x := (do
      let st ← analyzeMarginal wT wO cleared wB1 1
      let st' ← analyzeMarginal wT wO st wB 1
      let st'' ← analyzeMarginal wT wO cleared wB 1
      pure (st, st', st'')))
    (P := fun r => decide (r.2.2.svdRank = 2 ∧ (getCovariance r.2.2).get 1 1 = 1 ∧ r.2.1.sv = r.2.2.sv ∧ r.2.1.svdRank = 1 ∧
      (getCovariance r.2.1).get 1 1 = 0)) (by decide +kernel)
  obtain ⟨_, e1, h⟩ := Out.bind_eq_ok.1 h
  obtain ⟨_, e2, h⟩ := Out.bind_eq_ok.1 h
  obtain ⟨_, e3, h⟩ := Out.bind_eq_ok.1 h
  simp only [Out.pure_eq, Out.ok.injEq, Prod.mk.injEq] at h
  obtain ⟨rfl, rfl, rfl⟩ := h
  exact ⟨wT, wO, wB1, wB, _, _, _, e1, e2, e3, of_decide_eq_true h1⟩

/-- The rank of singular values of which two are above the tolerance. -/
example : estimateNumericalRank [5, 3, 1 / 100] (1 / 10 : ℚ) = 2 := by
  rw [C117_rank (by simp; norm_num) (by simp)]
  decide +kernel

example : solveSystem wT wO (wA 1) wb 2 = .ok none := C117_refused wT wO (wA 1) wb 2 (Or.inr (Or.inr (Or.inl (by decide))))

/-! ## marginalize -/

theorem wM : ∃ R, marginalize wT (wA 2) 1 0 (1 / 1000) = .ok R ∧
    (R.Omega.get 0 0 = 5 ∧ R.Sigma.get 0 0 = 1 / 5 ∧ R.CS.cols = 1) := by
  obtain ⟨r, h, h1⟩ := Out.okAnd_spec (x := marginalize wT (wA 2) 1 0 (1 / 1000))
    (P := fun R => decide (R.Omega.get 0 0 = 5 ∧ R.Sigma.get 0 0 = 1 / 5 ∧ R.CS.cols = 1)) (by decide +kernel)
  exact ⟨r, h, of_decide_eq_true h1⟩

/-- The hypotheses of `C118_information_partial` and `C118_covariance_partial`. -/
example : ∃ R, marginalize wT (wA 2) 1 0 (1 / 1000) = .ok R ∧ IsInformation (wA 2) 1 1 R.Omega.get ∧
    ∀ a b, a < 1 → b < 1 → ∑ l ∈ range 1, R.Omega.get a l * R.Sigma.get l b = if a = b then 1 else 0 := by
  obtain ⟨R, h, h1, h2, h3⟩ := wM
  refine ⟨R, h, (C118_information_partial h rfl (wA_spqr' 2)).2.2, ?_⟩
  refine ((C118_covariance_partial h rfl (wA_spqr' 2) ?_).2.2.2.2.2.1 h3).1
  refine wT_svd ?_ ?_ ?_
  · intro i j (hi : i < 1) (hj : j < 1) hij; omega
  · intro k _; simp only [without]; exact sum_nonneg fun i _ => mul_self_nonneg _
  · intro k l hkl (hl : l < 1)
    obtain rfl : k = l := by omega
    exact le_rfl

/-- **C118** If the columns of the first group are dependent (here: zero), information about the second group is lost: the
equations `y = .`, `y = .` carry the information 2 and 1 is delivered. The factor is orthogonal and does its part. -/
theorem C118_dependent_counterexample : ∃ (T : Tools ℚ) (J : Mat ℚ) (F : Spqr ℚ) (R : Marginal ℚ),
    marginalize T J 1 0 (1 / 1000) = .ok R ∧ T.qr (firstColumns J 1) = some F ∧ Orthonormal J.rows F.q ∧
    (∀ i, 1 ≤ i → i < J.rows → ∑ l ∈ range J.rows, F.q l i * J.get l 0 = 0) ∧
    IsInformation J 1 1 (fun _ _ => 2) ∧ R.Omega.get 0 0 = 1 := by
  obtain ⟨R, h, h1⟩ := Out.okAnd_spec (x := marginalize wT (Mat.ofRows 2 2 [[0, 1], [0, 1]]) 1 0 (1 / 1000))
    (P := fun R => decide (R.Omega.get 0 0 = 1)) (by decide +kernel)
  refine ⟨wT, _, wF (firstColumns (Mat.ofRows 2 2 [[0, 1], [0, 1]]) 1), R, h, rfl, wF_orth _ _, ?_, ?_, of_decide_eq_true h1⟩
  · intro i h1 (h2 : i < 2)
    obtain rfl : i = 1 := by omega
    show ∑ l ∈ range 2, _ = _
    simp [sum_range_succ, Mat.ofRows]
  · intro y
    refine ⟨fun x => le_of_eq ?_, fun _ => 0, ?_⟩
    · show _ = ∑ i ∈ range 2, _
      simp [form, sum_range_succ, Mat.ofRows]; ring
    · show _ = ∑ i ∈ range 2, _
      simp [form, sum_range_succ, Mat.ofRows]; ring

end Kalibr.Lin
