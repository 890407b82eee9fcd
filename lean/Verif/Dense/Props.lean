import Verif.Dense.Model
import Verif.Sparse.Props
import Verif.Sparse.ExportProps
import Mathlib.LinearAlgebra.Matrix.ToLin
import Mathlib.LinearAlgebra.FiniteDimensional.Lemmas
import Mathlib.Algebra.BigOperators.Fin

/-!
# Properties of the dense linear solver
-/

namespace Kalibr.Dense

open Sparse

variable {K : Type}

theorem colIdx_eq {A : SBM K} (h : Mono A.cbi) {c : Nat} (hc : c ≤ A.cbi.length) : colIdx A c = base A.cbi c := by
  induction c with
  | zero => rfl
  | succ c ih =>
    have h1 : colIdx A (c + 1) = colIdx A c + size A.cbi c := by
      simp [colIdx, List.range_succ, List.foldl_append]
    rw [h1, ih (by omega), base_succ h (by omega)]

/-- Above the diagonal the blocks that are left out do not matter. -/
theorem fold_upper [Zero K] {A : SBM K} (h : WF A) (hs : A.rbi = A.cbi) {i j : Nat} (hij : i ≤ j) (l : List (Nat × Nat × Mat K))
    (hl : ∀ b ∈ l, b.1 < A.rbi.length ∧ b.2.1 < A.cbi.length) :
    ∀ H H' : Nat → Nat → K, H i j = H' i j →
    l.foldl (fun H b => if b.1 ≤ b.2.1 then SBM.toDense.assign H (base A.rbi b.1) (colIdx A b.2.1) (size A.rbi b.1)
        (size A.cbi b.2.1) b.2.2 else H) H i j =
      l.foldl (fun H b => SBM.toDense.assign H (base A.rbi b.1) (base A.cbi b.2.1)
        (size A.rbi b.1) (size A.cbi b.2.1) b.2.2) H' i j := by
  induction l with
  | nil => exact fun H H' hH => hH
  | cons b l ih =>
    intro H H' hH
    obtain ⟨hb1, hb2⟩ := hl b (by simp)
    simp only [List.foldl_cons]
    apply ih (fun b hb => hl b (by simp [hb]))
    rw [colIdx_eq h.cols hb2.le]
    split_ifs with hc
    · simp only [SBM.toDense.assign, hH]
    · simp only [SBM.toDense.assign]
      rw [if_neg, hH]
      rintro ⟨h1, h2, h3, h4⟩
      have m := base_mono h.rows (a := b.2.1 + 1) (b := b.1) (by omega) hb1.le
      rw [base_succ h.rows (by omega)] at m
      rw [hs] at m h1
      omega

theorem fill_upper [Zero K] {A : SBM K} (h : WF A) (hs : A.rbi = A.cbi) {i j : Nat} (hij : i ≤ j) :
    fill A i j = A.toDense.get i j := by
  refine fold_upper h hs hij A.blocks ?_ _ _ rfl
  rintro ⟨r, c, J⟩ hb
  have hb := (mem_blocks_iff h).1 hb
  have hf := h.blk_fits hb
  exact ⟨hf.2.1, hf.1⟩

/-- **C185**: the system that is solved is that of the symmetric matrix whose part on and above the diagonal is that of the
given matrix, for every division into blocks. -/
theorem C185_system [Zero K] (A : SBM K) (h : WF A) (hs : A.rbi = A.cbi) (M : Mat K) (hM : Denotes A M)
    (ldlt : Nat → (Nat → Nat → K) → (Nat → K) → (Nat → K)) (b : Nat → K) :
    ∃ S, solve ldlt A b = .ok (ldlt M.rows S b, true) ∧ ∀ i j, i < M.rows → j < M.rows → S i j = (symm M).get i j := by
  have hM' := (C33_toDense A h).2 M hM
  have hr : M.rows = total A.cbi := by rw [hM.rows, hs]
  refine ⟨view (fill A), ?_, fun i j hi hj => ?_⟩
  · rw [solve, if_neg (not_not.2 hs), hr]
  · have hc : M.cols = M.rows := by rw [hM.rows, hM.cols, hs]
    simp only [view, Sparse.symm]
    split_ifs with hij
    · rw [fill_upper h hs hij]
      exact (hM'.2.2 i j hi (hc ▸ hj)).symm
    · rw [fill_upper h hs (by omega)]
      exact (hM'.2.2 j i hj (hc ▸ hi)).symm

/-- The factorization solves every symmetric system that has no solution but zero for the right-hand side zero, and looks at
the entries within the size only. -/
structure Solves [NonUnitalNonAssocSemiring K] (ldlt : Nat → (Nat → Nat → K) → (Nat → K) → (Nat → K)) : Prop where
  solution : ∀ n S b, (∀ i j, i < n → j < n → S i j = S j i) →
    (∀ x : Nat → K, (∀ i < n, ∑ j ∈ Finset.range n, S i j * x j = 0) → ∀ i < n, x i = 0) →
    ∀ i < n, ∑ j ∈ Finset.range n, S i j * ldlt n S b j = b i
  local' : ∀ n S S' b, (∀ i j, i < n → j < n → S i j = S' i j) → ldlt n S b = ldlt n S' b

/-- **C185**: with such a factorization, for a symmetric matrix without kernel, whether it is given in full or only its
blocks on and above the diagonal, what is returned solves the system. -/
theorem C185_solution [NonUnitalNonAssocSemiring K] (ldlt : Nat → (Nat → Nat → K) → (Nat → K) → (Nat → K)) (hL : Solves ldlt)
    (A : SBM K) (h : WF A) (hs : A.rbi = A.cbi) (M N : Mat K) (hM : Denotes A M) (b : Nat → K)
    (hN : N.rows = M.rows) (hu : ∀ i j, i < M.rows → j < M.rows → i ≤ j → N.get i j = M.get i j)
    (hsym : ∀ i j, i < M.rows → j < M.rows → N.get i j = N.get j i)
    (hk : ∀ x : Nat → K, (∀ i < M.rows, ∑ j ∈ Finset.range M.rows, N.get i j * x j = 0) → ∀ i < M.rows, x i = 0) :
    ∃ x, solve ldlt A b = .ok (x, true) ∧ ∀ i < N.rows, ∑ j ∈ Finset.range N.rows, N.get i j * x j = b i := by
  obtain ⟨S, h1, h2⟩ := C185_system A h hs M hM ldlt b
  have hSN : ∀ i j, i < M.rows → j < M.rows → S i j = N.get i j := by
    intro i j hi hj
    rw [h2 i j hi hj]
    simp only [Sparse.symm]
    split_ifs with hij
    · exact (hu i j hi hj hij).symm
    · rw [hsym i j hi hj]
      exact (hu j i hj hi (by omega)).symm
  refine ⟨_, h1, ?_⟩
  rw [hL.local' M.rows S N.get b hSN, hN]
  exact hL.solution M.rows N.get b hsym hk

/-- **C185**: blocks below the diagonal are not looked at. -/
theorem C185_lower [Zero K] (A A' : SBM K) (h : WF A) (h' : WF A') (hs : A.rbi = A.cbi) (hr : A'.rbi = A.rbi)
    (hc : A'.cbi = A.cbi) (he : ∀ r c, r ≤ c → A'.blk r c = A.blk r c) (i j : Nat) (hi : i < total A.rbi)
    (hj : j < total A.rbi) : view (fill A') i j = view (fill A) i j := by
  have key : ∀ i j, i ≤ j → j < total A.rbi → fill A' i j = fill A i j := by
    intro i j hij hj
    rw [fill_upper h hs hij, fill_upper h' (by rw [hr, hc, hs]) hij]
    obtain ⟨r, i', hr1, hi', rfl⟩ := block_exists h.rows (n := i) (by omega)
    obtain ⟨c, j', hc1, hj', rfl⟩ := block_exists h.rows (n := j) hj
    have hrc : r ≤ c := by
      by_contra hcon
      have m := base_mono h.rows (a := c + 1) (b := r) (by omega) hr1.le
      rw [base_succ h.rows hc1] at m
      omega
    have e1 := (toDense_denotes h).entry r c i' j' hr1 (hs ▸ hc1) hi' (hs ▸ hj')
    have e2 := (toDense_denotes h').entry r c i' j' (hr ▸ hr1) (by rw [hc, ← hs]; exact hc1) (hr ▸ hi')
      (by rw [hc, ← hs]; exact hj')
    rw [hr, hc, ← hs] at e2
    rw [← hs] at e1
    rw [e1, e2, val, val, he r c hrc]
  simp only [view]
  split_ifs with hij
  · exact key i j hij hj
  · exact key j i (by omega) hi

/-- **C185**: it reports success for a system without solution. -/
theorem C185_singular_counterexample :
    ∃ A : SBM ℚ, WF A ∧ A.rbi = A.cbi ∧ (∀ ldlt, ∃ x, solve ldlt A (fun _ => 1) = .ok (x, true)) ∧
      ¬ ∃ x : Nat → ℚ, ∀ i < total A.rbi, ∑ j ∈ Finset.range (total A.cbi), A.toDense.get i j * x j = 1 := by
  refine ⟨SBM.new [1] [1], new_wf (by simp [Mono]) (by simp [Mono]), rfl, fun ldlt => ⟨_, if_neg (not_not.2 rfl)⟩, ?_⟩
  rintro ⟨x, hx⟩
  have := hx 0 (by decide)
  have ht : total (SBM.new (K := ℚ) [1] [1]).cbi = 1 := rfl
  have hz : (SBM.new (K := ℚ) [1] [1]).toDense.get 0 0 = 0 := rfl
  rw [ht, Finset.sum_range_one, hz] at this
  simp at this

/-- The hypotheses of `C185_system` and `C185_lower` are met by a matrix of two blocks by two. -/
example : WF exU ∧ exU.rbi = exU.cbi ∧ view (fill exU) 1 0 = 2 ∧ view (fill exU) 2 1 = 5 ∧ exU.toDense.get 1 0 = 9 :=
  ⟨(((new_wf (by simp [Mono]) (by simp [Mono])).modBlk (by decide) _ (fun _ _ _ => ⟨rfl, rfl⟩)).modBlk
    (by decide) _ (fun _ _ _ => ⟨rfl, rfl⟩)).modBlk (by decide) _ (fun _ _ _ => ⟨rfl, rfl⟩), rfl, by decide +kernel,
    by decide +kernel, by decide +kernel⟩

/-- A function as `Solves` asks for: any solution. -/
noncomputable def anySolution (n : Nat) (S : Nat → Nat → ℚ) (b : Nat → ℚ) : Nat → ℚ :=
  Classical.epsilon fun x => ∀ i < n, ∑ j ∈ Finset.range n, S i j * x j = b i

/-- There is a factorization as `Solves` asks for. -/
example : Solves anySolution := by
  constructor
  · intro n S b _ hk
    refine Classical.epsilon_spec (p := fun x : Nat → ℚ => ∀ i < n, ∑ j ∈ Finset.range n, S i j * x j = b i) ?_
    let T : Matrix (Fin n) (Fin n) ℚ := fun i j => S i j
    have hinj : Function.Injective T.mulVecLin := by
      rw [← LinearMap.ker_eq_bot, LinearMap.ker_eq_bot']
      intro y hy
      have := hk (fun j => if h : j < n then y ⟨j, h⟩ else 0) (fun i hi => by
        have h1 := congrFun hy ⟨i, hi⟩
        rw [← Fin.sum_univ_eq_sum_range (fun j => S i j * (if h : j < n then y ⟨j, h⟩ else 0))]
        rw [Matrix.mulVecLin_apply] at h1
        simpa [T, Matrix.mulVec, dotProduct] using h1)
      funext i
      simpa using this i i.2
    obtain ⟨y, hy⟩ := LinearMap.injective_iff_surjective.1 hinj (fun i => b i)
    refine ⟨fun j => if h : j < n then y ⟨j, h⟩ else 0, fun i hi => ?_⟩
    have h1 := congrFun hy ⟨i, hi⟩
    rw [← Fin.sum_univ_eq_sum_range (fun j => S i j * (if h : j < n then y ⟨j, h⟩ else 0))]
    rw [Matrix.mulVecLin_apply] at h1
    simpa [T, Matrix.mulVec, dotProduct] using h1
  · intro n S S' b h
    have : (fun x : Nat → ℚ => ∀ i < n, ∑ j ∈ Finset.range n, S i j * x j = b i) =
        fun x => ∀ i < n, ∑ j ∈ Finset.range n, S' i j * x j = b i := by
      funext x
      refine propext (forall_congr' fun i => imp_congr_right fun hi => ?_)
      rw [Finset.sum_congr rfl fun j hj => by rw [h i j hi (Finset.mem_range.1 hj)]]
    simp only [anySolution, this]

end Kalibr.Dense
