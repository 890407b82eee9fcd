import Verif.Cov.Props
import Verif.Target.GridProps
import Mathlib.Tactic.IntervalCases

/-!
# The covariances of the optimiser
-/

namespace Kalibr.Cov

open Sparse Finset

variable {K : Type} [Field K] {n : Nat}

/-- What is assumed of CHOLMOD, which reads the upper triangle: the arrays it delivers are a permutation of the rows and
a lower triangular factor of the permuted symmetric matrix. -/
def Factorises (chol : Mat K → Option (Chol K)) : Prop :=
  ∀ (M : Mat K) (L : Chol K), chol M = some L →
    Lower M.cols L.p L.i L.x ∧ L.perm.Perm (List.range M.cols) ∧
    ∀ i j, i < M.cols → j < M.cols →
      (symm M).get (L.perm.getD i 0) (L.perm.getD j 0) =
        ∑ k ∈ range M.cols, dense L.p L.i L.x i k * dense L.p L.i L.x j k

theorem perm_getD {p : List Nat} (hp : p.Perm (List.range n)) {i : Nat} (hi : i < n) : p.getD i 0 < n := by
  have hl : p.length = n := by rw [hp.length_eq, List.length_range]
  rw [List.getD_eq_getElem _ _ (by omega)]
  exact List.mem_range.1 (hp.mem_iff.1 (List.getElem_mem _))

theorem perm_inj {p : List Nat} (hp : p.Perm (List.range n)) {i j : Nat} (hi : i < n) (hj : j < n)
    (e : p.getD i 0 = p.getD j 0) : i = j := by
  have hl : p.length = n := by rw [hp.length_eq, List.length_range]
  have hnd : p.Nodup := hp.nodup_iff.2 List.nodup_range
  rw [List.getD_eq_getElem _ _ (by omega), List.getD_eq_getElem _ _ (by omega)] at e
  exact (hnd.getElem_inj_iff).1 e

theorem perm_surj {p : List Nat} (hp : p.Perm (List.range n)) {a : Nat} (ha : a < n) : ∃ i, i < n ∧ p.getD i 0 = a := by
  have hl : p.length = n := by rw [hp.length_eq, List.length_range]
  obtain ⟨i, hi, e⟩ := List.mem_iff_getElem.1 (hp.mem_iff.2 (List.mem_range.2 ha))
  exact ⟨i, by omega, by rw [List.getD_eq_getElem _ _ hi, e]⟩

theorem invert_loop {p : List Nat} (hp : p.Perm (List.range n)) (m : Nat) (hm : m ≤ n) :
    ∃ acc, (List.range m).foldlM (fun (acc : List Nat) (i : Nat) =>
      match p[i]? with
      | none => (.ub : Out (List Nat))
      | some k => if n ≤ k then .ub else return acc.set k i) (List.replicate n 0) = .ok acc ∧
      acc.length = n ∧ ∀ i, i < m → acc.getD (p.getD i 0) 0 = i := by
  have hl : p.length = n := by rw [hp.length_eq, List.length_range]
  induction m with
  | zero => exact ⟨_, rfl, by simp, fun i hi => by omega⟩
  | succ m ih =>
    obtain ⟨acc, e, h1, h2⟩ := ih (by omega)
    have hk := perm_getD hp (i := m) (by omega)
    refine ⟨acc.set (p.getD m 0) m, ?_, by simp [h1], ?_⟩
    · have hpm : p[m]? = some (p.getD m 0) := get_of_getD (by omega)
      rw [List.range_succ, List.foldlM_append, e]
      simp only [Out.ok_bind, List.foldlM_cons, List.foldlM_nil, hpm, if_neg (not_le.2 hk), Out.pure_eq]
    · intro i hi
      by_cases him : i = m
      · subst him
        rw [List.getD_eq_getElem?_getD, List.getElem?_set_self (by omega), Option.getD_some]
      · have hne : p.getD m 0 ≠ p.getD i 0 := fun e => him (perm_inj hp (by omega) (by omega) e.symm)
        rw [List.getD_eq_getElem?_getD, List.getElem?_set_ne hne, ← List.getD_eq_getElem?_getD]
        exact h2 i (by omega)

theorem invert_ok {p : List Nat} (hp : p.Perm (List.range n)) : ∃ q, invertPerm n p = .ok q ∧
    q.Perm (List.range n) ∧ ∀ i, i < n → q.getD (p.getD i 0) 0 = i := by
  obtain ⟨q, e, hl, h⟩ := invert_loop hp n le_rfl
  refine ⟨q, e, ?_, h⟩
  have hsub : List.range n ⊆ q := by
    intro i hi
    have hi := List.mem_range.1 hi
    have hk := perm_getD hp hi
    rw [← h i hi, List.getD_eq_getElem _ _ (by omega)]
    exact List.getElem_mem _
  exact (List.subperm_of_subset List.nodup_range hsub).perm_of_length_le (by simp [hl]) |>.symm

/-- **C115**: the covariance blocks of the optimiser are the blocks of the inverse of the symmetric matrix whose upper
triangle is the Hessian, exactly those asked for; an exception if CHOLMOD finds the matrix not positive definite. -/
theorem C115_optimizer_partial (chol : Mat K → Option (Chol K)) (hchol : Factorises chol) (H : SBM K) (hH : WF H)
    (hs : Square H) (M : Mat K) (hM : H.toDense = M) (hn : M.cols * M.cols ≤ 2147483648) (blocks : List (Nat × Nat))
    (hblocks : ∀ b ∈ blocks, b.1 < H.rbi.length ∧ b.2 < H.rbi.length) :
    (chol M = none → computeCovarianceBlocks chol H blocks = .raise) ∧
    ∀ L, chol M = some L → ∃ Z, IsInverse M.cols (symm M).get Z ∧ ∃ S,
      computeCovarianceBlocks chol H blocks = .ok S ∧ S.rbi = H.rbi ∧ S.cbi = H.rbi ∧
      (∀ a c, (a, c) ∉ blocks → S.blk a c = none) ∧
      ∀ a c, (a, c) ∈ blocks → ∃ J, S.blk a c = some J ∧ J.rows = size H.rbi a ∧ J.cols = size H.rbi c ∧
        ∀ i j, i < size H.rbi a → j < size H.rbi c → J.get i j = Z (base H.rbi a + i) (base H.rbi c + j) := by
  constructor
  · intro hnone
    simp only [computeCovarianceBlocks, solvePattern, hM, hnone, Out.ok_bind]
  · intro L hL
    obtain ⟨hlow, hperm, hfac⟩ := hchol M L hL
    have htot : M.cols = total H.cbi := by rw [← hM]; exact (toDense_denotes hH).cols
    obtain ⟨q, eq, hq, hqp⟩ := invert_ok hperm
    have hP : Permutes M.cols (some q) := by
      intro p hp
      injection hp with hp
      rw [← hp]; exact hq
    have hA : Factors M.cols (symm M).get L.p L.i L.x (some q) := by
      intro a b ha hb
      obtain ⟨i, hi, rfl⟩ := perm_surj hperm ha
      obtain ⟨j, hj, rfl⟩ := perm_surj hperm hb
      rw [hfac i j hi hj]
      simp only [place, hqp i hi, hqp j hj]
    obtain ⟨Z, hZ, S, e, r⟩ := C115_sparse_partial (symm M).get hlow (some q) hP hA hn H.rbi hH.rows
      (by rw [htot, hs.1]) blocks hblocks
    refine ⟨Z, hZ, S, ?_, r⟩
    rw [set_ok hlow] at e
    simp only [Out.ok_bind] at e
    simp only [computeCovarianceBlocks, solvePattern, hM, hL, Out.ok_bind, eq, ← htot, set_ok hlow, e, Out.pure_eq]

/-- **C115**: `computeDiagonalCovariances` delivers the diagonal blocks of the inverse, and no other. -/
theorem C115_diagonal_partial (chol : Mat K → Option (Chol K)) (hchol : Factorises chol) (H : SBM K) (hH : WF H)
    (hs : Square H) (M : Mat K) (hM : H.toDense = M) (hn : M.cols * M.cols ≤ 2147483648) (L : Chol K)
    (hL : chol M = some L) :
    ∃ Z, IsInverse M.cols (symm M).get Z ∧ ∃ S, computeDiagonalCovariances chol H H.rbi.length = .ok S ∧
      ∀ a c, a < H.rbi.length → c < H.rbi.length →
        if a = c then ∃ J, S.blk a c = some J ∧ J.rows = size H.rbi a ∧ J.cols = size H.rbi c ∧
          ∀ i j, i < size H.rbi a → j < size H.rbi c → J.get i j = Z (base H.rbi a + i) (base H.rbi c + j)
        else S.blk a c = none := by
  have hmem : ∀ a c, (a, c) ∈ ((List.range H.rbi.length).map fun i => (i, i)) ↔ a < H.rbi.length ∧ a = c := by
    intro a c
    simp only [List.mem_map, List.mem_range, Prod.mk.injEq]
    constructor
    · rintro ⟨i, hi, rfl, rfl⟩; exact ⟨hi, rfl⟩
    · rintro ⟨h, rfl⟩; exact ⟨a, h, rfl, rfl⟩
  obtain ⟨Z, hZ, S, e, _, _, hnone, hsome⟩ := (C115_optimizer_partial chol hchol H hH hs M hM hn
    ((List.range H.rbi.length).map fun i => (i, i)) (by
      rintro ⟨a, c⟩ hb
      have := (hmem a c).1 hb
      exact ⟨this.1, this.2 ▸ this.1⟩)).2 L hL
  refine ⟨Z, hZ, S, e, ?_⟩
  intro a c ha hc
  split
  · exact hsome a c ((hmem a c).2 ⟨ha, by assumption⟩)
  · exact hnone a c fun h => by have := ((hmem a c).1 h).2; contradiction

/-- **C115**: `computeCovariances` delivers the blocks of the upper triangle of the inverse, and no other. -/
theorem C115_all_partial (chol : Mat K → Option (Chol K)) (hchol : Factorises chol) (H : SBM K) (hH : WF H)
    (hs : Square H) (M : Mat K) (hM : H.toDense = M) (hn : M.cols * M.cols ≤ 2147483648) (L : Chol K)
    (hL : chol M = some L) :
    ∃ Z, IsInverse M.cols (symm M).get Z ∧ ∃ S, computeCovariances chol H H.rbi.length = .ok S ∧
      ∀ a c, a < H.rbi.length → c < H.rbi.length →
        if a ≤ c then ∃ J, S.blk a c = some J ∧ J.rows = size H.rbi a ∧ J.cols = size H.rbi c ∧
          ∀ i j, i < size H.rbi a → j < size H.rbi c → J.get i j = Z (base H.rbi a + i) (base H.rbi c + j)
        else S.blk a c = none := by
  have hmem : ∀ a c, (a, c) ∈ ((List.range H.rbi.length).flatMap fun i =>
      (List.range' i (H.rbi.length - i)).map fun j => (i, j)) ↔ c < H.rbi.length ∧ a ≤ c := by
    intro a c
    simp only [List.mem_flatMap, List.mem_map, List.mem_range, List.mem_range', Prod.mk.injEq]
    constructor
    · rintro ⟨i, hi, j, ⟨k, hk, rfl⟩, rfl, rfl⟩; omega
    · rintro ⟨h, hac⟩; exact ⟨a, by omega, c, ⟨c - a, by omega, by omega⟩, rfl, rfl⟩
  obtain ⟨Z, hZ, S, e, _, _, hnone, hsome⟩ := (C115_optimizer_partial chol hchol H hH hs M hM hn
    ((List.range H.rbi.length).flatMap fun i => (List.range' i (H.rbi.length - i)).map fun j => (i, j)) (by
      rintro ⟨a, c⟩ hb
      have := (hmem a c).1 hb
      exact ⟨by simp only; omega, this.1⟩)).2 L hL
  refine ⟨Z, hZ, S, e, ?_⟩
  intro a c ha hc
  split
  · exact hsome a c ((hmem a c).2 ⟨hc, by assumption⟩)
  · exact hnone a c fun h => by have := ((hmem a c).1 h).2; contradiction

/-! ### Concrete cases -/

/-- The factor of `[[4, 2, 6], [2, 10, 0], [6, 0, 19]]`: rows `(2), (1, 3), (3, -1, 3)`. -/
def exP : List Nat := [0, 3, 5, 6]
/-- Its row indices. -/
def exI : List Nat := [0, 1, 2, 1, 2, 2]
/-- Its values. -/
def exX : List ℚ := [2, 1, 3, 3, -1, 3]

/-- Rows are permuted: row 0 of the matrix is row 2 of the factor. -/
def exPinv : List Nat := [2, 0, 1]

theorem ex_lower : Lower 3 exP exI exX := by
  refine ⟨rfl, rfl, ?_, ?_, ?_, ?_, ?_⟩
  · intro r hr; interval_cases r <;> decide
  · intro r hr; interval_cases r <;> decide
  · intro r hr; interval_cases r <;> decide
  · intro r hr; interval_cases r <;> decide +kernel
  · intro r j hr h1 h2
    interval_cases r
    · have : j = 1 ∨ j = 2 := by
        have e1 : exP.getD 0 0 = 0 := rfl
        have e2 : exP.getD 1 0 = 3 := rfl
        rw [e1] at h1; rw [e2] at h2; omega
      rcases this with rfl | rfl <;> decide
    · have : j = 4 := by
        have e1 : exP.getD 1 0 = 3 := rfl
        have e2 : exP.getD 2 0 = 5 := rfl
        rw [e1] at h1; rw [e2] at h2; omega
      subst this; decide
    · exfalso
      have e1 : exP.getD 2 0 = 5 := rfl
      have e2 : exP.getD 3 0 = 6 := rfl
      rw [e1] at h1; rw [e2] at h2; omega

/-- The matrix `[[19, 6, 0], [6, 4, 2], [0, 2, 10]]`, one block of size 1 and one of size 2, the upper triangle stored. -/
def exH : SBM ℚ := (((SBM.new [1, 3] [1, 3]).modBlk 0 0 fun _ => Mat.ofRows 1 1 [[19]]).modBlk 0 1 fun _ =>
  Mat.ofRows 1 2 [[6, 0]]).modBlk 1 1 fun _ => Mat.ofRows 2 2 [[4, 2], [2, 10]]

/-- The hypotheses of the theorems on blocks are met by a permuted factor of a matrix, and the diagonal blocks of the
inverse, `[[36, -60, 12], [-60, 190, -38], [12, -38, 40]] / 324`, are written. -/
example : Permutes 3 (some exPinv) ∧ (∀ i j, i < 3 → j < 3 →
      (symm exH.toDense).get i j = ∑ k ∈ range 3, dense exP exI exX (place (some exPinv) i) k *
        dense exP exI exX (place (some exPinv) j) k) ∧
    (setCholeskyFactor 3 exP exI exX (some exPinv) >>= fun F => computeCovariance F [1, 3]).okAnd (fun mems =>
      mems.map (fun mem => (List.range 5).map mem) =
        [[some (1 / 9), none, none, none, none],
          [some (95 / 162), some (-19 / 162), some (-19 / 162), some (10 / 81), none]]) = true := by
  refine ⟨?_, ?_, ?_⟩
  · intro p hp; injection hp with hp; rw [← hp]; decide
  · intro i j hi hj; interval_cases i <;> interval_cases j <;> decide +kernel
  · decide +kernel

/-- A factorisation that knows one matrix. -/
def exChol (M : Mat ℚ) : Option (Chol ℚ) :=
  if M.cols = 3 ∧ ∀ i ∈ List.range 3, ∀ j ∈ List.range 3, (symm M).get i j = (symm exH.toDense).get i j then
    some ⟨exP, exI, exX, [1, 2, 0]⟩
  else none

/-- The hypotheses of the theorems on the optimiser are met; the blocks of the upper triangle of the inverse are
delivered. -/
example : Factorises exChol ∧ WF exH ∧ Square exH ∧ exH.toDense.cols * exH.toDense.cols ≤ 2147483648 ∧
    (exChol exH.toDense).isSome ∧
    (computeCovariances exChol exH 2).okAnd (fun S => S.toDense.toRows =
      [[1 / 9, -5 / 27, 1 / 27], [0, 95 / 162, -19 / 162], [0, -19 / 162, 10 / 81]]) = true := by
  refine ⟨?_, ?_, ⟨rfl, ?_⟩, by decide +kernel, by decide +kernel, by decide +kernel⟩
  · intro M L hL
    rw [exChol] at hL
    by_cases hM : M.cols = 3 ∧ ∀ i ∈ List.range 3, ∀ j ∈ List.range 3, (symm M).get i j = (symm exH.toDense).get i j
    · rw [if_pos hM] at hL
      injection hL with hL
      subst hL
      rw [hM.1]
      refine ⟨ex_lower, by decide, ?_⟩
      intro i j hi hj
      simp only
      rw [hM.2 _ (List.mem_range.2 (perm_getD (n := 3) (by decide) hi)) _
        (List.mem_range.2 (perm_getD (n := 3) (by decide) hj))]
      interval_cases i <;> interval_cases j <;> decide +kernel
    · rw [if_neg hM] at hL; cases hL
  · exact (((new_wf (by simp [Mono]) (by simp [Mono])).modBlk (by decide) _ fun _ _ _ => ⟨rfl, rfl⟩).modBlk (by decide) _
      fun _ _ _ => ⟨rfl, rfl⟩).modBlk (by decide) _ fun _ _ _ => ⟨rfl, rfl⟩
  · intro k hk
    have hk : k < 2 := hk
    interval_cases k <;> decide

end Kalibr.Cov
