import Verif.BSpline.Calculus
import Verif.Mat
import Mathlib.MeasureTheory.Integral.IntervalIntegral.Basic

/-!
# Specification of the motion integrals

`curve s e` (in `Verif.BSpline.Calculus`) is component `e` of the B-spline curve of the knots and coefficients,
by the Cox-de Boor recursion.  `motionIntegral s W n` is the integral over the valid time of the squared `n`-th
derivative of the curve, weighted with the matrix `W`.
-/

namespace Kalibr.Motion

open BSpline

variable {D : Nat}

/-- The weighted squared `n`-th derivative at time `t`: `c⁽ⁿ⁾(t)ᵀ W c⁽ⁿ⁾(t)`. -/
noncomputable def motionDensity (s : Spline ℝ D) (W : Mat ℝ) (n : Nat) (t : ℝ) : ℝ :=
  ∑ d : Fin D, ∑ e : Fin D,
    iteratedDeriv n (curve s d) t * W.get d e * iteratedDeriv n (curve s e) t

/-- Its integral from the first to the last valid time. -/
noncomputable def motionIntegral (s : Spline ℝ D) (W : Mat ℝ) (n : Nat) : ℝ :=
  ∫ t in (knotAt s.knots (s.order - 1))..(knotAt s.knots (s.knots.length - s.order)), motionDensity s W n t

/-- The list of coefficients that a stacked coefficient vector stands for. -/
def unstack (D : Nat) (N : Nat) (x : Nat → ℝ) : List (Fin D → ℝ) :=
  (List.range N).map fun m d => x (m * D + d)

/-- The spline with other coefficients. -/
def withCoeffs (s : Spline ℝ D) (x : Nat → ℝ) : Spline ℝ D :=
  { s with coeffs := unstack D s.coeffs.length x }

end Kalibr.Motion
