import Verif.Common
import Verif.Camera.Distortion
import Verif.Expr.Model

/-!
# The reprojection error of rolling shutter cameras

Models `aslam_cv/aslam_cv_error_terms/include/aslam_cv_error_terms/implementation/CovarianceReprojectionError.hpp`
(here CRE) and the parts of `ErrorTermFs` it uses
(`aslam_optimizer/aslam_backend/include/aslam_backend/backend/implementation/ErrorTerm.hpp`, here ET), with
`computeMatrixSqrt` (`Schweizer-Messer/sm_eigen/include/sm_eigen/matrix_sqrt.hpp`) for two dimensions.
The Jacobians (CRE:124-138) are those of `ReprojectionError`, C106.
-/

namespace Kalibr.RsCov

open Kalibr.Camera Matrix

/-- What `covarianceMap` reads (CRE:46-65): the point in the frame of the camera, the Jacobian of its keypoint, the
transformation of the spline at the time of the observation with its Jacobian, the derivative of the spline and the line
delay. -/
structure View where
  p : V4
  Jp : Matrix (Fin 2) (Fin 4) ℝ
  T : Matrix (Fin 4) (Fin 4) ℝ
  JT : Matrix (Fin 6) (Fin 6) ℝ
  rate : Fin 6 → ℝ
  lineDelay : ℝ

/-- `J` of `covarianceMap` (CRE:65-70). -/
noncomputable def View.J (w : View) : V2 :=
  w.lineDelay • (w.Jp * Exp.boxMinus (w.T.mulVec w.p) * w.JT).mulVec w.rate

/-- `covarianceMap` (CRE:73-86). -/
noncomputable def View.map (w : View) : M2 := !![1, 0 + w.J 0; 0, 1 + w.J 1]

/-- `computeMatrixSqrt` (matrix_sqrt.hpp:20-39) of a matrix with two rows; `LDLT` of Eigen works on the lower triangle,
takes the larger diagonal entry first, and does not divide by it if it is zero. -/
noncomputable def matrixSqrt (M : M2) : M2 :=
  let swap := |M 0 0| < |M 1 1|
  open Classical in
  let a := if swap then M 1 1 else M 0 0
  let c := if swap then M 0 0 else M 1 1
  let l := if a = 0 then M 1 0 else M 1 0 / a
  let d := c - l * (a * l)
  if swap then !![l * √a, √d; √a, 0] else !![√a, 0; l * √a, √d]

/-- `inverse()` of Eigen; nothing is known of the result for a singular matrix. -/
noncomputable def inverse (M : M2) : Out M2 := open Classical in if M.det = 0 then .ub else .ok M⁻¹

/-- The members that `evaluateErrorImplementation` writes: `_error` and `_sqrtInvR` (ET:21-27). -/
structure Term where
  error : V2
  sqrtInvR : M2

/-- The constructors (CRE:13-37): the weight is left at the identity, the line that sets it is commented out. -/
def Term.fresh : Term := ⟨0, 1⟩

/-- `invR` (ET:48-52). -/
def Term.invR (t : Term) : M2 := t.sqrtInvR * t.sqrtInvRᵀ

/-- `evaluateErrorImplementation` (CRE:88-114) for a keypoint `y` with inverse covariance `W`, projected to `yhat`;
`w` is `none` if no spline was given. -/
noncomputable def Term.evaluate (t : Term) (y yhat : V2) (W : M2) (w : Option View) : Out (Term × ℝ) :=
  let t := { t with error := y - yhat }
  match w with
  | none => .ok (t, t.error ⬝ᵥ t.invR.mulVec t.error)
  | some w =>
    (inverse W).bind fun R =>
      (inverse (w.map * R * w.mapᵀ)).bind fun M =>
        let t := { t with sqrtInvR := matrixSqrt M }
        .ok (t, t.error ⬝ᵥ t.invR.mulVec t.error)

end Kalibr.RsCov
