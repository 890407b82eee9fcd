import Verif.Fit.Model
import Verif.Motion.Spec

/-!
# Specification of the construction of splines

What is assumed of the external solvers, and the cost that a fitted spline minimises.
-/

namespace Kalibr.Fit

open BSpline Motion

variable {K : Type} [Field K] [LinearOrder K] [IsStrictOrderedRing K] {D : Nat}

/-- `x` solves the system `A x = b` with `n` equations and unknowns. -/
def Solves (n : Nat) (A : Nat → Nat → K) (x b : Nat → K) : Prop :=
  ∀ i, i < n → ∑ j ∈ Finset.range n, A i j * x j = b i

/-- The system has at most one solution. -/
def Nonsingular (n : Nat) (A : Nat → Nat → K) : Prop :=
  ∀ x : Nat → K, Solves n A x (fun _ => 0) → ∀ j, j < n → x j = 0

/-- Symmetric and positive semidefinite. -/
def PosSemidef (n : Nat) (A : Nat → Nat → K) : Prop :=
  (∀ i j, i < n → j < n → A i j = A j i) ∧
  ∀ x : Nat → K, 0 ≤ ∑ i ∈ Finset.range n, ∑ j ∈ Finset.range n, x i * A i j * x j

/-- What is assumed of the solvers, in exact arithmetic: the QR decomposition solves every nonsingular system,
the LDLT decomposition solves every positive semidefinite system that has a solution, and CHOLMOD, when it
reports success on a positive semidefinite system, returns a solution. -/
structure Exact (sol : Solvers K) : Prop where
  qr : ∀ n A b, Nonsingular n A → Solves n A (sol.qr n A b) b
  ldlt : ∀ n A b, PosSemidef n A → (∃ x, Solves n A x b) → Solves n A (sol.ldlt n A b) b
  cholmod : ∀ n A b x, PosSemidef n A → sol.cholmod n A b = some x → Solves n A x b

/-- The squared distance of the spline, evaluated at the time, from the point. -/
noncomputable def missSq (s : Spline ℝ D) (t : ℝ) (p : Fin D → ℝ) : ℝ :=
  match evalD s t 0 with
  | .ok v => ∑ e, (v e - p e) ^ 2
  | _ => 0

/-- The diagonal matrix with `lam` on the diagonal. -/
noncomputable def scalarMat (D : Nat) (lam : ℝ) : Mat ℝ := ⟨D, D, fun i j => if i = j then lam else 0⟩

/-- The cost of a spline: the squared distances from the points, and `lam` times the integral of the squared
derivative of order `n`. -/
noncomputable def fitCost (s : Spline ℝ D) (data : List (ℝ × (Fin D → ℝ))) (lam : ℝ) (n : Nat) : ℝ :=
  (data.map fun q => missSq s q.1 q.2).sum + motionIntegral s (scalarMat D lam) n

end Kalibr.Fit
