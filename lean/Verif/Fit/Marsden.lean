import Verif.BSpline.Locate
import Mathlib.Algebra.Polynomial.Basic
import Mathlib.Algebra.Polynomial.BigOperators
import Mathlib.Algebra.Polynomial.Coeff
import Mathlib.Algebra.Polynomial.Roots
import Mathlib.LinearAlgebra.Matrix.NonsingularInverse
import Mathlib.LinearAlgebra.Matrix.Block

/-!
Marsden's identity for the basis polynomials of a segment, and its consequence: the basis matrix of a segment of
positive length is invertible, so that the coefficients of a segment are determined by the curve on it.
-/

namespace Kalibr.Fit

open BSpline Finset Polynomial

variable {K : Type} [Field K] [LinearOrder K] [IsStrictOrderedRing K]

/-- The dual polynomial of weight `c` of order `k` on segment `i`: the product over the knots inside its
support. -/
noncomputable def dual (τ : Nat → K) (k i c : Nat) : K[X] :=
  ∏ l ∈ range (k - 1), (X - C (τ (i + 2 + c + l - k)))

/-- Marsden's identity on a segment of positive length. -/
theorem marsden (τ : Nat → K) (n i k : Nat) (u : K) (hs : SortedBelow τ n) (hseg : τ i < τ (i + 1))
    (hk : k ≤ i) (hn : i + k < n) :
    ∑ c ∈ range (k + 1), C (bw τ (k + 1) i c u) * dual τ (k + 1) i c =
      (X - C (τ i + u * (τ (i + 1) - τ i))) ^ k := by
  induction k with
  | zero => simp [bw, basisM, dual]
  | succ k ih =>
    have ih := ih (by omega) (by omega)
    set t := τ i + u * (τ (i + 1) - τ i) with ht
    have hω : ∀ c, c < k + 1 → omg τ (k + 2) i (i + 2 + c - (k + 2)) u =
        (t - τ (i + 2 + c - (k + 2))) / (τ (i + 1 + c) - τ (i + 2 + c - (k + 2))) := by
      intro c hc
      have e : i + 2 + c - (k + 2) + (k + 2) - 1 = i + 1 + c := by omega
      have h1 : τ (i + 2 + c - (k + 2)) ≤ τ i := hs _ _ (by omega) (by omega)
      have h2 : τ (i + 1) ≤ τ (i + 1 + c) := hs _ _ (by omega) (by omega)
      rw [omg_eq τ (k + 2) i _ u t (by rw [e]; linarith) ht, e]
    have hden : ∀ c, c < k + 1 → τ (i + 1 + c) - τ (i + 2 + c - (k + 2)) ≠ 0 := by
      intro c hc
      have h1 : τ (i + 2 + c - (k + 2)) ≤ τ i := hs _ _ (by omega) (by omega)
      have h2 : τ (i + 1) ≤ τ (i + 1 + c) := hs _ _ (by omega) (by omega)
      intro h0
      linarith
    have hd1 : ∀ c, c < k + 1 → dual τ (k + 2) i c =
        dual τ (k + 1) i c * (X - C (τ (i + 2 + c - (k + 2)))) := by
      intro c hc
      unfold dual
      rw [show k + 2 - 1 = k + 1 by omega, show k + 1 - 1 = k by omega, prod_range_succ']
      congr 1
      apply prod_congr rfl
      intro l _
      rw [show i + 2 + c + (l + 1) - (k + 2) = i + 2 + c + l - (k + 1) by omega]
    have hd2 : ∀ c, c < k + 1 → dual τ (k + 2) i (c + 1) =
        dual τ (k + 1) i c * (X - C (τ (i + 1 + c))) := by
      intro c hc
      unfold dual
      rw [show k + 2 - 1 = k + 1 by omega, show k + 1 - 1 = k by omega, prod_range_succ]
      congr 1
      · apply prod_congr rfl
        intro l _
        rw [show i + 2 + (c + 1) + l - (k + 2) = i + 2 + c + l - (k + 1) by omega]
      · rw [show i + 2 + (c + 1) + k - (k + 2) = i + 1 + c by omega]
    have hsum : ∑ c ∈ range (k + 2), C (bw τ (k + 2) i c u) * dual τ (k + 2) i c =
        ∑ c ∈ range (k + 1), C (bw τ (k + 1) i c u) *
          (C (omg τ (k + 2) i (i + 2 + c - (k + 2)) u) * dual τ (k + 2) i (c + 1) +
            (1 - C (omg τ (k + 2) i (i + 2 + c - (k + 2)) u)) * dual τ (k + 2) i c) := by
      have e : ∀ c ∈ range (k + 2), C (bw τ (k + 2) i c u) * dual τ (k + 2) i c =
          (if 1 ≤ c then C (bw τ (k + 1) i (c - 1) u) *
            (C (omg τ (k + 2) i (i + 2 + (c - 1) - (k + 2)) u)) * dual τ (k + 2) i c else 0) +
          (if c < k + 1 then C (bw τ (k + 1) i c u) *
            (1 - C (omg τ (k + 2) i (i + 2 + c - (k + 2)) u)) * dual τ (k + 2) i c else 0) := by
        intro c hc
        rw [bw_succ τ k i c u (by simpa using hc)]
        by_cases h1 : 1 ≤ c <;> by_cases h2 : c < k + 1 <;> simp [h1, h2] <;> ring
      rw [sum_congr rfl e, sum_add_distrib, sum_range_succ', sum_range_succ (fun c => if c < k + 1 then _ else _)]
      simp only [if_neg (by omega : ¬ 1 ≤ 0), add_zero, if_neg (by omega : ¬ k + 1 < k + 1), mul_add,
        sum_add_distrib]
      congr 1
      · apply sum_congr rfl
        intro c _
        rw [if_pos (by omega), Nat.add_sub_cancel]
        ring
      · apply sum_congr rfl
        intro c hc
        rw [if_pos (by simpa using hc)]
        ring
    rw [hsum, pow_succ, ← ih, sum_mul]
    apply sum_congr rfl
    intro c hc
    have hc : c < k + 1 := by simpa using hc
    rw [hd1 c hc, hd2 c hc]
    have key : C (omg τ (k + 2) i (i + 2 + c - (k + 2)) u) * (X - C (τ (i + 1 + c))) +
        (1 - C (omg τ (k + 2) i (i + 2 + c - (k + 2)) u)) * (X - C (τ (i + 2 + c - (k + 2)))) = X - C t := by
      have h3 : t = τ (i + 2 + c - (k + 2)) + omg τ (k + 2) i (i + 2 + c - (k + 2)) u *
          (τ (i + 1 + c) - τ (i + 2 + c - (k + 2))) := by
        rw [hω c hc, div_mul_cancel₀ _ (hden c hc)]; ring
      have h4 := congrArg (C : K → K[X]) h3
      simp only [map_add, map_mul, map_sub] at h4
      rw [h4]; ring
    rw [← key]; ring

/-- The basis matrix of a segment, as a square matrix. -/
def basisMatrix (τ : Nat → K) (k i : Nat) : Matrix (Fin k) (Fin k) K := fun r c => basisM τ k i r c

/-- The basis matrix of a segment of positive length is invertible. -/
theorem basisMatrix_isUnit (τ : Nat → K) (n i k : Nat) (hs : SortedBelow τ n) (hseg : τ i < τ (i + 1))
    (hk : k ≤ i) (hn : i + k < n) : IsUnit (basisMatrix τ (k + 1) i) := by
  set h := τ (i + 1) - τ i with hh
  have hpos : h ≠ 0 := by rw [hh]; intro h0; linarith
  let E : Matrix (Fin (k + 1)) (Fin (k + 1)) K := fun c j => (dual τ (k + 1) i c).coeff (k - j)
  let p : Nat → K[X] := fun j => (-(C (τ i) + X * C h)) ^ j * C ((Nat.choose k (k - j) : Nat) : K)
  have hlin : ∀ j, ((-(C (τ i) + X * C h) : K[X]) ^ j).natDegree = j ∧
      ((-(C (τ i) + X * C h) : K[X]) ^ j).leadingCoeff = (-h) ^ j := by
    intro j
    have e : (-(C (τ i) + X * C h) : K[X]) = C (-h) * X + C (-τ i) := by
      simp only [map_neg]; ring
    have hd : (C (-h) * X + C (-τ i) : K[X]).natDegree = 1 := natDegree_linear (by simpa using hpos)
    have hl : (C (-h) * X + C (-τ i) : K[X]).leadingCoeff = -h := leadingCoeff_linear (by simpa using hpos)
    rw [e, natDegree_pow, hd, leadingCoeff_pow, hl]
    simp
  have key : basisMatrix τ (k + 1) i * E = Matrix.of fun (r j : Fin (k + 1)) => (p j).coeff r := by
    have hu : ∀ (u : K) (j : Fin (k + 1)),
        ∑ c : Fin (k + 1), bw τ (k + 1) i c u * E c j = (p j).eval u := by
      intro u j
      have m := congrArg (fun q => coeff q (k - j)) (marsden τ n i k u hs hseg hk hn)
      simp only [finsetSum_coeff, coeff_C_mul] at m
      rw [← Fin.sum_univ_eq_sum_range (fun c => bw τ (k + 1) i c u * (dual τ (k + 1) i c).coeff (k - j))] at m
      rw [show ∑ c : Fin (k + 1), bw τ (k + 1) i c u * E c j =
        ∑ c : Fin (k + 1), bw τ (k + 1) i c u * (dual τ (k + 1) i c).coeff (k - j) from rfl, m]
      rw [sub_eq_add_neg, ← C_neg, coeff_X_add_C_pow]
      simp only [p, eval_mul, eval_pow, eval_neg, eval_add, eval_C, eval_X]
      rw [show k - (k - (j : Nat)) = j by have := j.2; omega]
    have hpoly : ∀ j : Fin (k + 1),
        ∑ r ∈ range (k + 1), C (∑ c : Fin (k + 1), basisM τ (k + 1) i r c * E c j) * X ^ r = p j := by
      intro j
      apply Polynomial.funext
      intro u
      rw [← hu u j]
      simp only [eval_finsetSum, eval_mul, eval_C, eval_pow, eval_X, bw, sum_mul]
      rw [sum_comm]
      apply sum_congr rfl
      intro c _
      apply sum_congr rfl
      intro r _
      ring
    ext r j
    rw [Matrix.mul_apply, Matrix.of_apply, ← hpoly j, finsetSum_coeff]
    simp only [coeff_C_mul, coeff_X_pow]
    rw [sum_eq_single (r : Nat)]
    · simp [basisMatrix]
    · intro b _ hb
      rw [if_neg (fun h => hb h.symm), mul_zero]
    · intro hr
      exact absurd (mem_range.2 r.2) hr
  have hT : IsUnit (basisMatrix τ (k + 1) i * E) := by
    rw [key, Matrix.isUnit_iff_isUnit_det, Matrix.det_of_isUpperTriangular]
    · rw [isUnit_iff_ne_zero, prod_ne_zero_iff]
      intro j _
      have := (hlin j).2
      rw [leadingCoeff, (hlin j).1] at this
      simp only [p, coeff_mul_C, Matrix.of_apply]
      rw [this]
      refine mul_ne_zero (pow_ne_zero _ (neg_ne_zero.2 hpos)) ?_
      have : Nat.choose k (k - (j : Nat)) ≠ 0 := (Nat.choose_pos (by omega)).ne'
      exact_mod_cast this
    · intro r j hrj
      simp only [p, coeff_mul_C, Matrix.of_apply]
      rw [coeff_eq_zero_of_natDegree_lt, zero_mul]
      rw [(hlin j).1]
      exact hrj
  exact isUnit_of_mul_isUnit_left hT

/-- On a segment of positive length only zero coefficients give the zero polynomial. -/
theorem bw_independent (τ : Nat → K) (n i k : Nat) (hs : SortedBelow τ n) (hseg : τ i < τ (i + 1))
    (hk : k ≤ i) (hn : i + k < n) (a : Nat → K)
    (h : ∀ r, r < k + 1 → ∑ c ∈ range (k + 1), basisM τ (k + 1) i r c * a c = 0) :
    ∀ c, c < k + 1 → a c = 0 := by
  have hu := basisMatrix_isUnit τ n i k hs hseg hk hn
  have h0 : (basisMatrix τ (k + 1) i).mulVec (fun c : Fin (k + 1) => a c) = 0 := by
    ext r
    rw [Matrix.mulVec, dotProduct]
    have := h r r.2
    rw [← Fin.sum_univ_eq_sum_range (fun c => basisM τ (k + 1) i r c * a c)] at this
    exact this
  have h1 : (fun c : Fin (k + 1) => a c) = 0 := by
    have inj := Matrix.mulVec_injective_of_isUnit hu
    apply inj
    rw [h0, Matrix.mulVec_zero]
  intro c hc
  exact congrFun h1 ⟨c, hc⟩

/-- Every polynomial of degree less than the order is a combination of the weights. -/
theorem bw_surjective (τ : Nat → K) (n i k : Nat) (hs : SortedBelow τ n) (hseg : τ i < τ (i + 1))
    (hk : k ≤ i) (hn : i + k < n) (b : Nat → K) :
    ∃ a : Nat → K, ∀ r, r < k + 1 → ∑ c ∈ range (k + 1), basisM τ (k + 1) i r c * a c = b r := by
  have hu := basisMatrix_isUnit τ n i k hs hseg hk hn
  obtain ⟨x, hx⟩ := Matrix.mulVec_surjective_iff_isUnit.2 hu (fun r : Fin (k + 1) => b r)
  refine ⟨fun c => if h : c < k + 1 then x ⟨c, h⟩ else 0, fun r hr => ?_⟩
  rw [← Fin.sum_univ_eq_sum_range
    (fun c => basisM τ (k + 1) i r c * (if h : c < k + 1 then x ⟨c, h⟩ else 0))]
  have := congrFun hx ⟨r, hr⟩
  rw [Matrix.mulVec, dotProduct] at this
  simp only [Fin.is_lt, dif_pos, Fin.eta]
  exact this

end Kalibr.Fit
