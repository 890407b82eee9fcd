import Mathlib.Algebra.Order.Field.Basic

/-!
# Specification: the Cox–de Boor B-spline basis

Independent of the code: the textbook recursion over a knot sequence `τ`, where a quotient with zero
denominator counts as zero (which is Lean's convention for division).
-/

namespace Kalibr.BSpline

variable {K : Type} [Field K] [LinearOrder K]

/-- Cox–de Boor recursion from given degree-0 values: degree `p`, basis function `m`. -/
def cox (τ : Nat → K) (base : Nat → K) (t : K) : Nat → Nat → K
  | 0, m => base m
  | p + 1, m =>
    (t - τ m) / (τ (m + p + 1) - τ m) * cox τ base t p m +
    (τ (m + p + 2) - t) / (τ (m + p + 2) - τ (m + 1)) * cox τ base t p (m + 1)

/-- The B-spline basis function `N_{m,k}` of order `k ≥ 1` (degree `k - 1`) at `t`, right-continuous
(half-open intervals `[τ_m, τ_{m+1})`). -/
def bsplineN (τ : Nat → K) (k m : Nat) (t : K) : K :=
  cox τ (fun m => if τ m ≤ t ∧ t < τ (m + 1) then 1 else 0) t (k - 1) m

/-- The left-continuous version (half-open intervals `(τ_m, τ_{m+1}]`), the usual convention at the
right end of the domain. -/
def bsplineNLeft (τ : Nat → K) (k m : Nat) (t : K) : K :=
  cox τ (fun m => if τ m < t ∧ t ≤ τ (m + 1) then 1 else 0) t (k - 1) m

end Kalibr.BSpline
