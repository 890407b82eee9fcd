import Verif.Common
import Mathlib.Analysis.Real.Sqrt

/-!
# Quadratic equations and signs

A model of `sm::solveQuadratic` and `sm::sgn` (Schweizer-Messer/sm_common/include/sm_common/maths.hpp:20-51) over the real
numbers.  A quotient with the divisor zero is infinite or not a number in C++; it is `none` here.  Rounding is not modelled.
-/

namespace Kalibr.Quadratic

/-- The division of doubles: `none` if the result is not finite. -/
noncomputable def div (x y : ℝ) : Option ℝ := if y = 0 then none else some (x / y)

/-- `solveQuadratic` (maths.hpp:20-38). -/
noncomputable def solveQuadratic (a b c : ℝ) : Out (Option ℝ × Option ℝ) :=
  let d := b * b - 4 * c * a
  if d ≥ 0 then
    let n := if b < 0 then Real.sqrt d - b else -Real.sqrt d - b
    .ok (div n (2 * a), div (2 * c) n)
  else .raise

/-- `sgn` (maths.hpp:48-50): the difference of two comparisons as integers. -/
noncomputable def sgn (v : ℝ) : ℤ := (if 0 < v then 1 else 0) - (if v < 0 then 1 else 0)

/-! ## Specification -/

/-- `x` solves the equation. -/
def Root (a b c x : ℝ) : Prop := a * x ^ 2 + b * x + c = 0

end Kalibr.Quadratic
