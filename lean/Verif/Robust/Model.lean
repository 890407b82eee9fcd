import Mathlib.Analysis.SpecialFunctions.Exp
import Mathlib.Analysis.SpecialFunctions.Sqrt
import Verif.Tactics

/-!
# Model of the robust weights

Sources: `/repo/aslam_optimizer/aslam_backend/src/MEstimatorPolicies.cpp`, `src/ErrorTerm.cpp` and
`include/aslam_backend/backend/implementation/ErrorTerm.hpp`.

Doubles are modelled as real numbers.
-/

namespace Kalibr.Robust

/-- `computeEpsilon`, lines 113-116; `c` is the value of `chi2InvCDF(pCut, df)`. -/
noncomputable def computeEpsilon (c wCut : ℝ) : ℝ := (1 - wCut) / wCut * Real.exp (-c)

/-- The estimators with their parameters.  The Blake-Zisserman estimator is given by the quantile
computed in its constructor (which is not modelled) and the weight at the cut. -/
inductive MEst
  | none
  | gemanMcClure (sigma2 : ℝ)
  | cauchy (sigma2 : ℝ)
  | huber (k : ℝ)
  | blakeZisserman (c wCut : ℝ)

/-- `getWeight` as a function of the squared error: lines 17-19, 30-33, 46-49, 64-66 and 101-103. -/
noncomputable def MEst.weight : MEst → ℝ → ℝ
  | .none, _ => 1
  | .gemanMcClure s, e => s / ((s + e) * (s + e))
  | .cauchy s, e => 1 / (1 + e / s)
  | .huber k, e => if e < k * k then 1 else k / Real.sqrt e
  | .blakeZisserman c w, e => Real.exp (-e) / (Real.exp (-e) + computeEpsilon c w)

/-- `ErrorTerm::getWeightedSquaredError`, ErrorTerm.cpp lines 148-151: the term's contribution to the
cost. -/
noncomputable def MEst.cost (m : MEst) (e : ℝ) : ℝ := m.weight e * e

/-- `getWeightedError`, ErrorTerm.hpp lines 186-196, for one component: the error is multiplied by the
square root of the weight at the squared error. -/
noncomputable def MEst.weightedError (m : MEst) (sq x : ℝ) : ℝ := Real.sqrt (m.weight sq) * x

end Kalibr.Robust
