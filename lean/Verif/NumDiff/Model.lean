import Mathlib.Data.Fintype.Basic
import Mathlib.Data.List.FinRange
import Mathlib.Data.Real.Basic

/-!
# Numerical Jacobians

Models `NumericalDiff` of `/repo/Schweizer-Messer/sm_eigen/include/sm_eigen/NumericalDiff.hpp`, the macros of
`/repo/aslam_cv/aslam_cameras/include/aslam_cameras/cameras/FiniteDifferences.hpp` and
`ErrorTerm::evaluateJacobiansFiniteDifference` of `/repo/aslam_optimizer/aslam_backend/src/ErrorTerm.cpp`.  Numbers are exact
reals, so what is added and subtracted again is as before.  The packing of the Jacobians into a container is not modelled.
-/

namespace Kalibr.NumDiff

variable {n m : ℕ}

/-- A vector. -/
abbrev V (n : ℕ) : Type := Fin n → ℝ

/-- A Jacobian by row and column. -/
abbrev Jac (m n : ℕ) : Type := Fin m → Fin n → ℝ

/-- `NumericalDiffFunctor::update` (NumericalDiff.hpp:24), `ErrorTermFunctor::update` (ErrorTerm.cpp:205-209). -/
def update (x : V n) (c : Fin n) (delta : ℝ) : V n := Function.update x c (x c + delta)

/-- Writes a column. -/
def setCol (J : Jac m n) (c : Fin n) (v : V m) : Jac m n := fun r => Function.update (J r) c (v r)

/-- `rcEps` (NumericalDiff.hpp:56). -/
noncomputable def stepOf (eps x : ℝ) : ℝ := max (|x| * eps) eps

/-- `estimateJacobian` (NumericalDiff.hpp:40-63): the functor may have effects on a state `S`. -/
noncomputable def estimate {S : Type} (f : V n → S → V m × S) (eps : ℝ) (x0 : V n) (s : S) : Jac m n × S :=
  let s := (f x0 s).2
  (List.finRange n).foldl (fun (a : Jac m n × S) c =>
    let h := stepOf eps (x0 c)
    let p := f (update x0 c h) a.2
    let q := f (update x0 c (-h)) p.2
    (setCol a.1 c fun r => (p.1 r - q.1 r) / (h * 2), q.2)) (fun _ _ => 0, s)

/-- What an error term remembers: the values of its variables and the error that was evaluated last. -/
structure Term (X : Type) (m : ℕ) where
  vars : X
  error : V m

/-- `ErrorTermFunctor::operator()` (ErrorTerm.cpp:211-228): updates, evaluates the error and reverts. -/
def functor {X : Type} (apply : X → V n → X) (err : X → V m) (dr : V n) (t : Term X m) : V m × Term X m :=
  let x := apply t.vars dr
  (err x, { vars := t.vars, error := err x })

/-- `evaluateJacobiansFiniteDifference` (ErrorTerm.cpp:236-255). -/
noncomputable def evaluateJacobians {X : Type} (apply : X → V n → X) (err : X → V m) (t : Term X m) :
    Jac m n × Term X m :=
  estimate (functor apply err) 1e-6 (fun _ => 0) t

/-- `ASLAM_CAMERAS_ESTIMATE_JACOBIAN` (FiniteDifferences.hpp:4-26): the Jacobian and the vector at the end. -/
noncomputable def camera (f : V n → V m) (step : ℝ) (x0 : V n) : Jac m n × V n :=
  (List.finRange n).foldl (fun (a : Jac m n × V n) c =>
    let x := update a.2 c step
    let fxp := f x
    let x := update x c (-(2 * step))
    let fxm := f x
    let x := update x c step
    (setCol a.1 c fun r => (fxp r - fxm r) / (step * 2), x)) (fun _ _ => 0, x0)

/-- `ASLAM_CAMERAS_ESTIMATE_INTRINSIC_JACOBIAN` with the columns in increasing order (FiniteDifferences.hpp:29-65) and
`ASLAM_CAMERAS_ESTIMATE_DISTORTION_JACOBIAN` with the columns in decreasing order (FiniteDifferences.hpp:67-107): the
Jacobian, `I`, and the parameters the object is left with. -/
noncomputable def intrinsic (f : V n → V m) (step : ℝ) (params : V n) (cols : List (Fin n)) : Jac m n × V n × V n :=
  cols.foldl (fun (a : Jac m n × V n × V n) c =>
    let I := update a.2.1 c (2 * step)
    let fa := f I
    let I := update I c (-step)
    let fb := f I
    let I := update I c (-(2 * step))
    let fc := f I
    let I := update I c (-step)
    let fd := f I
    (setCol a.1 c fun r => (8 * fb r + fd r - fa r - 8 * fc r) / (step * 12), I, params)) (fun _ _ => 0, params, params)

end Kalibr.NumDiff
