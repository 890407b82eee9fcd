import Verif.Lin.Reduce

/-!
# What `solve` has computed when it returns
-/

namespace Kalibr.Lin

open Finset

variable {K : Type} [Field K] [LinearOrder K]

theorem reduceLeft_eq {F : Spqr K} {Ar : Mat K} {n : Nat} (hn : n < Ar.rows) (hF : Orthonormal Ar.rows F.q) :
    reduceLeftHandSide F n Ar.transpose = .ok (without F.q (n + 1) Ar,
      ⟨Ar.cols, n + 1, fun c i => ∑ l ∈ range Ar.rows, Ar.get l c * F.q l i⟩) := by
  obtain ⟨Ω, ArtQ, h1, h2, h3, h4, h5⟩ := reduceLeft_ok hn hF
  rw [h1, h5]
  congr 2
  cases Ω with
  | mk r c g =>
    cases h2
    cases h3
    simp only [without, Mat.mk.injEq, true_and]
    funext c c'
    exact h4 c c'

theorem columnSubmatrix_eq (A : Mat K) {s e : Int} (h : 0 ≤ s ∧ s ≤ e ∧ e < A.cols) :
    columnSubmatrix A s e = .ok ⟨A.rows, (e - s + 1).toNat, fun i j => A.get i (s.toNat + j)⟩ := by
  have h1 : ¬ e < s := by omega
  have h2 : ¬ (A.cols : Int) ≤ e := by omega
  have h3 : ¬ s < 0 := by omega
  simp only [columnSubmatrix, if_neg h1, if_neg h2, if_neg h3]

theorem columnSubmatrix_raise (A : Mat K) {s e : Int} (h : ¬(0 ≤ s ∧ s ≤ e ∧ e < A.cols)) :
    columnSubmatrix A s e = .raise := by
  by_cases h1 : e < s
  · simp only [columnSubmatrix, if_pos h1]
  by_cases h2 : (A.cols : Int) ≤ e
  · simp only [columnSubmatrix, if_neg h1, if_pos h2]
  have h3 : s < 0 := by omega
  simp only [columnSubmatrix, if_neg h1, if_neg h2, if_pos h3]

theorem scaledPart_left (T : Tools K) (o : Options K) (A : Mat K) {n : Nat} (h0 : 0 < n) (hn : n ≤ A.cols) :
    scaledPart T o A 0 ((n : Int) - 1) = .ok (leftPart T o A n, scaleOf T o A) := by
  have e : ((n : Int) - 1 - 0 + 1).toNat = n := by omega
  rw [scaledPart, columnSubmatrix_eq A (by omega), e]
  cases hc : o.columnScaling
  · simp [leftPart, scaleOf, hc]
    funext c
    simp [scaleOf, hc]
  · simp [leftPart, scaleOf, hc, scaleColumns, columnScalingMatrix, colNorm]
    funext c
    simp [scaleOf, hc, columnScalingMatrix, colNorm]

theorem scaledPart_right (T : Tools K) (o : Options K) (A : Mat K) {n : Nat} (hn : n < A.cols) :
    scaledPart T o A n ((A.cols : Int) - 1) = .ok (rightPart T o A n, fun c => scaleOf T o A (n + c)) := by
  have e : ((A.cols : Int) - 1 - n + 1).toNat = A.cols - n := by omega
  rw [scaledPart, columnSubmatrix_eq A (by omega), e]
  cases hc : o.columnScaling
  · simp [rightPart, scaleOf, hc]
  · simp [rightPart, scaleOf, hc, scaleColumns, columnScalingMatrix, colNorm]
    funext c
    simp [columnScalingMatrix, colNorm]

theorem scaledPart_raise (T : Tools K) (o : Options K) (A : Mat K) {s e : Int} (h : ¬(0 ≤ s ∧ s ≤ e ∧ e < A.cols)) :
    scaledPart T o A s e = .raise := by
  rw [scaledPart, columnSubmatrix_raise A h]
  rfl

theorem rankFrom_le (sv : List K) (tol : K) (n : Nat) : rankFrom sv tol n ≤ n := by
  induction n with
  | zero => simp [rankFrom]
  | succ n ih =>
    cases n with
    | zero => simp [rankFrom]
    | succ n =>
      rw [rankFrom]
      split_ifs
      · exact le_refl _
      · omega

theorem rankFrom_pos (sv : List K) (tol : K) {n : Nat} (h : 0 < n) : 0 < rankFrom sv tol n := by
  induction n with
  | zero => exact absurd h (lt_irrefl 0)
  | succ n ih =>
    cases n with
    | zero => simp [rankFrom]
    | succ n =>
      rw [rankFrom]
      split_ifs
      · omega
      · exact ih (by omega)

/-- The state holds the decomposition and the estimated rank. -/
theorem rankState_ok {o : Options K} {f : Nat × Nat × Nat} {S : Svd K} {st : State K} (h : rankState o f S = .ok st) :
    st.sv = S.sv ∧ st.U = S.U ∧ st.V = S.V ∧ st.svdRank = estimateNumericalRank S.sv st.svdTolerance ∧
      st.svdRankDeficiency = (S.sv.length : Int) - estimateNumericalRank S.sv st.svdTolerance ∧
      (st.svdTolerance = if o.svdTol = -1 then S.sv.getD 0 0 * o.epsSVD * (S.sv.length : K) else o.svdTol) ∧ 0 < S.sv.length := by
  rw [rankState] at h
  obtain ⟨tol, h1, h⟩ := Out.bind_eq_ok.1 h
  obtain ⟨gap, h2, h⟩ := Out.bind_eq_ok.1 h
  simp only [Out.pure_eq, Out.ok.injEq] at h
  subst h
  have hlen : 0 < S.sv.length := by
    by_contra hl
    have hl : S.sv = [] := List.length_eq_zero_iff.1 (by omega)
    rw [hl] at h2
    simp [estimateNumericalRank, rankFrom, svGap] at h2
  refine ⟨rfl, rfl, rfl, rfl, rfl, ?_, hlen⟩
  by_cases hc : o.svdTol = -1
  · rw [if_pos hc] at h1 ⊢
    match hs : S.sv with
    | [] => rw [hs] at hlen; simp at hlen
    | s :: l =>
      rw [hs, rankTol] at h1
      simp only [Out.ok.injEq] at h1
      rw [← h1]
      simp
  · rw [if_neg hc] at h1 ⊢
    exact (Out.ok.injEq _ _ ▸ h1).symm

theorem solveSVD_ok {b : Mat K} {S : Svd K} {rank : Nat} {x : Nat → K} (h : solveSVD b S rank = .ok x) :
    (∀ k, k < rank → S.sv.getD k 0 ≠ 0) ∧ x = fun c => ∑ k ∈ Finset.range rank,
      S.V.get c k * (1 / S.sv.getD k 0) * ∑ i ∈ Finset.range b.rows, S.U.get i k * b.get i 0 := by
  rw [solveSVD] at h
  split_ifs at h with h1 h2 h3
  refine ⟨fun k hk h0 => h3 ⟨k, List.mem_range.2 hk, h0⟩, ?_⟩
  exact (Out.ok.injEq _ _ ▸ h).symm

/-- Everything `solve` has computed when it returns. -/
theorem solve_ok {T : Tools K} {o : Options K} {A b : Mat K} {n : Nat} {F : Spqr K} {st : State K} {x : Nat → K}
    (h : solve T o A b n = .ok (st, x)) (hqr : T.qr (leftPart T o A n) = some F) (hF : Orthonormal A.rows F.q) :
    b.rows = A.rows ∧ 0 < n ∧ n < A.cols ∧ n < A.rows ∧
      rankState o (A.rows, n, T.nnz (leftPart T o A n)) (T.svd (without F.q (n + 1) (rightPart T o A n))) = .ok st ∧
      ∃ (br : Mat K) (xr : Nat → K), br.rows = A.cols - n ∧
        (∀ c, br.get c 0 = ∑ i ∈ Ico (n + 1) A.rows, rot F (rightPart T o A n) i c * rot F b i 0) ∧
        solveSVD br (T.svd (without F.q (n + 1) (rightPart T o A n))) st.svdRank.toNat = .ok xr ∧
        x = fun c => if c < n then scaleOf T o A c * solveQR F b (rightPart T o A n) xr c
          else scaleOf T o A (n + (c - n)) * xr (c - n) := by
  rw [solve] at h
  by_cases hb : A.rows ≠ b.rows
  · rw [if_pos hb] at h; cases h
  rw [if_neg hb] at h
  push Not at hb
  by_cases hl : (0 : Int) ≤ 0 ∧ (0 : Int) ≤ (n : Int) - 1 ∧ (n : Int) - 1 < A.cols
  swap
  · rw [scaledPart_raise T o A hl] at h; cases h
  rw [scaledPart_left T o A (by omega) (by omega)] at h
  simp only [Out.ok_bind, hqr] at h
  by_cases hr : (0 : Int) ≤ n ∧ (n : Int) ≤ (A.cols : Int) - 1 ∧ (A.cols : Int) - 1 < A.cols
  swap
  · rw [scaledPart_raise T o A hr] at h; cases h
  have hnc : n < A.cols := by omega
  rw [scaledPart_right T o A hnc] at h
  simp only [Out.ok_bind] at h
  by_cases hm : A.rows ≤ n
  · rw [show (leftPart T o A n).cols = n from rfl, reduceLeft_raise (Ar := rightPart T o A n) hm] at h; cases h
  push Not at hm
  rw [show (leftPart T o A n).cols = n from rfl, reduceLeft_eq (Ar := rightPart T o A n) hm hF] at h
  simp only [Out.ok_bind] at h
  obtain ⟨br, hbr, hbr1, hbr2⟩ := reduceRight_ok (F := F) (Ar := rightPart T o A n) (b := b) (n := n) hm hb.symm hF
  rw [hbr] at h
  simp only [Out.ok_bind] at h
  obtain ⟨st', h1, h⟩ := Out.bind_eq_ok.1 h
  obtain ⟨xr, h2, h⟩ := Out.bind_eq_ok.1 h
  simp only [Out.pure_eq, Out.ok.injEq, Prod.mk.injEq] at h
  obtain ⟨rfl, rfl⟩ := h
  exact ⟨hb.symm, by omega, hnc, hm, h1, br, xr, hbr1, hbr2, h2, rfl⟩

end Kalibr.Lin
