import Verif.BSpline.Model
import Verif.BSpline.Spec
import Mathlib.Algebra.BigOperators.Ring.Finset
import Mathlib.Algebra.BigOperators.Intervals

namespace Kalibr.BSpline

open Finset

variable {K : Type} [Field K] [LinearOrder K] [IsStrictOrderedRing K] {D : Nat}

/-- Sum over a bidiagonal row. -/
theorem sum_bidiag_row (k idx : Nat) (h : idx < k) (a b : K) :
    ∑ c ∈ range (k + 1), (if c = idx then a else if c = idx + 1 then b else 0) = a + b := by
  rw [sum_eq_add_of_mem idx (idx + 1)]
  · simp
  · simp; omega
  · simp; omega
  · omega
  · intro c _ hc
    rw [if_neg hc.1, if_neg hc.2]

/-- Every row of `A` sums to one. -/
theorem matA_row (τ : Nat → K) (k i idx : Nat) (h : idx < k + 1) :
    ∑ c ∈ range (k + 2), matA τ (k + 2) i idx c = 1 := by
  unfold matA
  rw [sum_bidiag_row (k + 1) idx h]; ring

/-- Every row of `B` sums to zero. -/
theorem matB_row (τ : Nat → K) (k i idx : Nat) (h : idx < k + 1) :
    ∑ c ∈ range (k + 2), matB τ (k + 2) i idx c = 0 := by
  unfold matB
  rw [sum_bidiag_row (k + 1) idx h]; ring

/-- Row sums of a basis matrix: 1 in row 0 and 0 elsewhere, for any knots whatsoever. -/
theorem basisM_row_sum (τ : Nat → K) (k i r : Nat) (hk : 1 ≤ k) (hr : r < k) :
    ∑ c ∈ range k, basisM τ k i r c = if r = 0 then 1 else 0 := by
  induction k generalizing r with
  | zero => omega
  | succ k ih =>
    cases k with
    | zero =>
      have : r = 0 := by omega
      subst this
      simp [basisM]
    | succ k =>
      simp only [basisM]
      rw [sum_add_distrib]
      have e1 : ∀ g : Nat → K, ∑ c ∈ range (k + 1 + 1), ∑ idx ∈ range (k + 1),
          g idx * matA τ (k + 2) i idx c = ∑ idx ∈ range (k + 1), g idx := by
        intro g
        rw [sum_comm]
        apply sum_congr rfl
        intro idx hidx
        rw [← mul_sum, matA_row τ k i idx (by simpa using hidx), mul_one]
      have e2 : ∀ g : Nat → K, ∑ c ∈ range (k + 1 + 1), ∑ idx ∈ range (k + 1),
          g idx * matB τ (k + 2) i idx c = 0 := by
        intro g
        rw [sum_comm]
        apply sum_eq_zero
        intro idx hidx
        rw [← mul_sum, matB_row τ k i idx (by simpa using hidx), mul_zero]
      rw [e1, e2, add_zero]
      by_cases h : r < k + 1
      · simp only [if_pos h]
        exact ih r (by omega) h
      · simp only [if_neg h, sum_const_zero]
        rw [if_neg (by omega)]

/-- Local basis polynomial `c` of order `k` on segment `i`, as a function of normalised time. -/
def bw (τ : Nat → K) (k i c : Nat) (u : K) : K :=
  ∑ r ∈ range k, u ^ r * basisM τ k i r c

/-- The blending weight of the recursion. -/
def omg (τ : Nat → K) (k i j : Nat) (u : K) : K := d0 τ k i j + u * d1 τ k i j

theorem sum_bidiag_col (k c : Nat) (hc : c < k + 1) (f : Nat → K) (a b : Nat → K) :
    ∑ idx ∈ range k, f idx * (if c = idx then a idx else if c = idx + 1 then b idx else 0) =
      (if 1 ≤ c then f (c - 1) * b (c - 1) else 0) + (if c < k then f c * a c else 0) := by
  have h1 : ∀ idx ∈ range k, f idx * (if c = idx then a idx else if c = idx + 1 then b idx else 0) =
      (if idx = c - 1 then (if 1 ≤ c then f (c - 1) * b (c - 1) else 0) else 0) +
      (if idx = c then f c * a c else 0) := by
    intro idx _
    by_cases e1 : c = idx
    · subst e1
      simp only [if_true]
      by_cases e2 : c = c - 1
      · have : c = 0 := by omega
        subst this
        simp
      · rw [if_neg e2, zero_add]
    · by_cases e2 : c = idx + 1
      · subst e2
        simp
      · have e3 : idx ≠ c := fun h => e1 h.symm
        rw [if_neg e1, if_neg e2, if_neg e3, mul_zero, add_zero]
        by_cases e4 : idx = c - 1
        · rw [if_pos e4, if_neg (by omega)]
        · rw [if_neg e4]
  rw [sum_congr rfl h1, sum_add_distrib, sum_ite_eq', sum_ite_eq']
  congr 1
  · simp only [mem_range]
    split
    · rfl
    · split
      · omega
      · rfl
  · simp only [mem_range]

/-- Cox–de Boor recursion in local form. -/
theorem bw_succ (τ : Nat → K) (k i c : Nat) (u : K) (hc : c < k + 2) :
    bw τ (k + 2) i c u =
      (if 1 ≤ c then bw τ (k + 1) i (c - 1) u * omg τ (k + 2) i (i + 2 + (c - 1) - (k + 2)) u else 0) +
      (if c < k + 1 then bw τ (k + 1) i c u * (1 - omg τ (k + 2) i (i + 2 + c - (k + 2)) u) else 0) := by
  have key : bw τ (k + 2) i c u =
      ∑ idx ∈ range (k + 1), bw τ (k + 1) i idx u * (matA τ (k + 2) i idx c + u * matB τ (k + 2) i idx c) := by
    unfold bw
    simp only [basisM, mul_add, sum_add_distrib, mul_sum]
    congr 1
    · rw [sum_comm]
      apply sum_congr rfl
      intro idx _
      rw [sum_range_succ, if_neg (by omega), zero_mul, mul_zero, add_zero, sum_mul]
      apply sum_congr rfl
      intro r hr
      rw [if_pos (by simpa using hr)]; ring
    · rw [sum_comm]
      apply sum_congr rfl
      intro idx _
      rw [sum_range_succ', if_neg (by omega), zero_mul, mul_zero, add_zero, sum_mul]
      apply sum_congr rfl
      intro r _
      rw [if_pos (by omega), Nat.add_sub_cancel]; ring
  rw [key]
  have e : ∀ idx, matA τ (k + 2) i idx c + u * matB τ (k + 2) i idx c =
      if c = idx then 1 - omg τ (k + 2) i (i + 2 + idx - (k + 2)) u
      else if c = idx + 1 then omg τ (k + 2) i (i + 2 + idx - (k + 2)) u else 0 := by
    intro idx
    unfold matA matB omg
    split
    · ring
    · split
      · ring
      · ring
  simp only [e]
  exact sum_bidiag_col (k + 1) c hc (fun idx => bw τ (k + 1) i idx u) _ _

/-- On a proper segment the blending weight is the textbook one. -/
theorem omg_eq (τ : Nat → K) (k i j : Nat) (u t : K) (hden : 0 < τ (j + k - 1) - τ j)
    (ht : t = τ i + u * (τ (i + 1) - τ i)) :
    omg τ k i j u = (t - τ j) / (τ (j + k - 1) - τ j) := by
  unfold omg d0 d1
  simp only [if_neg (not_le.2 hden)]
  rw [ht]; ring

/-- The knots are nondecreasing on the indices below `n`. -/
def SortedBelow (τ : Nat → K) (n : Nat) : Prop := ∀ a b, a ≤ b → b < n → τ a ≤ τ b

/-- The recursion of the code, on a proper segment `i`, is the Cox–de Boor recursion started from
the indicator of that segment. -/
theorem cox_eq_bw (τ : Nat → K) (n p i m : Nat) (u t : K) (hs : SortedBelow τ n)
    (hseg : τ i < τ (i + 1)) (ht : t = τ i + u * (τ (i + 1) - τ i)) (hi : p ≤ i)
    (hn : i + p + 1 < n) :
    cox τ (fun m => if m = i then 1 else 0) t p m =
      if i ≤ m + p ∧ m ≤ i then bw τ (p + 1) i (m + p - i) u else 0 := by
  induction p generalizing m with
  | zero =>
    simp only [cox]
    by_cases h : m = i
    · subst h; simp [bw, basisM]
    · rw [if_neg h, if_neg (by omega)]
  | succ p ih =>
    simp only [cox]
    rw [ih m (by omega) (by omega), ih (m + 1) (by omega) (by omega)]
    by_cases h : i ≤ m + (p + 1) ∧ m ≤ i
    · rw [if_pos h, bw_succ τ p i (m + (p + 1) - i) u (by omega)]
      congr 1
      · by_cases h1 : i ≤ m + p
        · rw [if_pos ⟨h1, h.2⟩, if_pos (by omega)]
          have hden : 0 < τ (m + (p + 2) - 1) - τ m := by
            have a1 := hs m i h.2 (by omega)
            have a2 := hs (i + 1) (m + (p + 2) - 1) (by omega) (by omega)
            linarith
          rw [show i + 2 + (m + (p + 1) - i - 1) - (p + 2) = m by omega,
            omg_eq τ (p + 2) i m u t hden ht, show m + (p + 2) - 1 = m + p + 1 by omega,
            show m + (p + 1) - i - 1 = m + p - i by omega]
          ring
        · rw [if_neg (by omega), if_neg (by omega), mul_zero]
      · by_cases h1 : m + 1 ≤ i
        · rw [if_pos ⟨by omega, h1⟩, if_pos (by omega)]
          have hden : 0 < τ (m + 1 + (p + 2) - 1) - τ (m + 1) := by
            have a1 := hs (m + 1) i h1 (by omega)
            have a2 := hs (i + 1) (m + 1 + (p + 2) - 1) (by omega) (by omega)
            linarith
          rw [show i + 2 + (m + (p + 1) - i) - (p + 2) = m + 1 by omega,
            omg_eq τ (p + 2) i (m + 1) u t hden ht]
          rw [show m + 1 + (p + 2) - 1 = m + p + 2 by omega] at hden ⊢
          rw [show m + 1 + p - i = m + (p + 1) - i by omega]
          have hne := ne_of_gt hden
          rw [mul_comm]
          congr 1
          rw [eq_sub_iff_add_eq, ← add_div, div_eq_one_iff_eq hne]
          ring
        · rw [if_neg (by omega), if_neg (by omega), mul_zero]
    · rw [if_neg h]
      by_cases h1 : i ≤ m + p ∧ m ≤ i
      · omega
      · rw [if_neg h1]
        by_cases h2 : i ≤ m + 1 + p ∧ m + 1 ≤ i
        · omega
        · rw [if_neg h2]; ring

/-- The recursion only looks at the base values of the indices it spans. -/
theorem cox_congr (τ : Nat → K) (b b' : Nat → K) (t : K) (p m : Nat)
    (h : ∀ j, m ≤ j → j ≤ m + p → b j = b' j) : cox τ b t p m = cox τ b' t p m := by
  induction p generalizing m with
  | zero => exact h m (le_refl _) (le_refl _)
  | succ p ih =>
    simp only [cox]
    rw [ih m (fun j h1 h2 => h j h1 (by omega)), ih (m + 1) (fun j h1 h2 => h j (by omega) (by omega))]

/-- The weights are non-negative on the closed segment. -/
theorem bw_nonneg (τ : Nat → K) (n k i c : Nat) (u : K) (hs : SortedBelow τ n)
    (hk : 1 ≤ k) (hi : k ≤ i + 1) (hn : i + k < n) (hc : c < k) (hu0 : 0 ≤ u) (hu1 : u ≤ 1) :
    0 ≤ bw τ k i c u := by
  induction k generalizing c with
  | zero => omega
  | succ k ih =>
    cases k with
    | zero => simp [bw, basisM]
    | succ k =>
      rw [bw_succ τ k i c u hc]
      have hom : ∀ j, i ≤ j + k → j ≤ i → 0 ≤ omg τ (k + 2) i j u ∧ omg τ (k + 2) i j u ≤ 1 := by
        intro j h1 h2
        by_cases hden : τ (j + (k + 2) - 1) - τ j ≤ 0
        · unfold omg d0 d1
          simp only [if_pos hden]
          norm_num
        · push Not at hden
          rw [omg_eq τ (k + 2) i j u _ hden rfl]
          have a1 := hs j i h2 (by omega)
          have a2 := hs (i + 1) (j + (k + 2) - 1) (by omega) (by omega)
          have a3 := hs i (i + 1) (by omega) (by omega)
          have a4 : 0 ≤ u * (τ (i + 1) - τ i) := mul_nonneg hu0 (by linarith)
          have a5 : u * (τ (i + 1) - τ i) ≤ 1 * (τ (i + 1) - τ i) :=
            mul_le_mul_of_nonneg_right hu1 (by linarith)
          refine ⟨div_nonneg (by linarith) hden.le, ?_⟩
          rw [div_le_one hden]; linarith
      apply add_nonneg
      · split
        · exact mul_nonneg (ih (c - 1) (by omega) (by omega) (by omega) (by omega))
            (hom _ (by omega) (by omega)).1
        · exact le_refl _
      · split
        · rename_i h
          exact mul_nonneg (ih c (by omega) (by omega) (by omega) h)
            (sub_nonneg.2 (hom _ (by omega) (by omega)).2)
        · exact le_refl _

end Kalibr.BSpline
