import Verif.Stats.Model
import Mathlib.Probability.Distributions.Gaussian.Real

/-!
# What is expected of the distributions and of the estimators
-/

namespace Kalibr.Stats

open Matrix ProbabilityTheory

/-- The mean after a sequence of calls of the setters: the last one given. -/
def lastMean : ℝ → List NOp → ℝ
  | m, [] => m
  | _, .setMean m :: os => lastMean m os
  | m, .setVariance _ :: os => lastMean m os

/-- The variance after a sequence of calls of the setters: the last positive one given. -/
noncomputable def lastVar : ℝ → List NOp → ℝ
  | v, [] => v
  | v, .setMean _ :: os => lastVar v os
  | v, .setVariance w :: os => lastVar (if 0 < w then w else v) os

/-- A sample is a list of points with their weights. -/
abbrev Sample (P : Type) := List (P × ℝ)

/-- The points added since the last reset, one by one or in groups, without weights. -/
def live {P : Type} : List P → List (EOp P) → List P
  | l, [] => l
  | l, .addPoint x :: os => live (l ++ [x]) os
  | l, .addPoints xs :: os => live (l ++ xs) os
  | l, .addWeighted _ _ :: os => live l os
  | _, .reset :: os => live [] os

/-- The sample the last estimate was made from, if there is one: all points since the last reset with weight one, or
the points of the last call with weights. -/
def source {P : Type} : List P → Option (Sample P) → List (EOp P) → Option (Sample P)
  | _, s, [] => s
  | l, _, .addPoint x :: os => source (l ++ [x]) (some ((l ++ [x]).map fun y => (y, 1))) os
  | l, s, .addPoints xs :: os => source (l ++ xs) (if xs = [] then s else some ((l ++ xs).map fun y => (y, 1))) os
  | l, s, .addWeighted xs rs :: os => source l (if xs.length = rs.length then some (xs.zip rs) else s) os
  | _, _, .reset :: os => source [] none os

/-- The weights of the calls with weights are not negative. -/
def Weighed {P : Type} (os : List (EOp P)) : Prop := ∀ xs rs, EOp.addWeighted xs rs ∈ os → ∀ r ∈ rs, (0 : ℝ) ≤ r

/-- The logarithm of the likelihood of a sample for a density: a point counts as often as its weight says. -/
noncomputable def logLik {P : Type} (f : P → ℝ) (s : Sample P) : ℝ := (s.map fun p => p.2 * Real.log (f p.1)).sum

/-- Two points of the sample that count differ. -/
def Spread {P : Type} (s : Sample P) : Prop := ∃ p ∈ s, ∃ q ∈ s, 0 < p.2 ∧ 0 < q.2 ∧ p.1 ≠ q.1

/-- The density of the normal distribution of a number. -/
noncomputable def density (m v x : ℝ) : ℝ := gaussianPDFReal m v.toNNReal x

variable {n : ℕ}

/-- The density of the normal distribution of a vector. -/
noncomputable def densityM (m : Fin n → ℝ) (S : Matrix (Fin n) (Fin n) ℝ) (x : Fin n → ℝ) : ℝ :=
  (Real.sqrt ((2 * Real.pi) ^ n * S.det))⁻¹ * Real.exp (-(1 / 2) * ((x - m) ⬝ᵥ S⁻¹ *ᵥ (x - m)))

/-- Eigen works as documented: the inverse of a regular matrix, the Cholesky factor of a positive definite matrix,
and a test that holds for the positive semidefinite matrices. -/
structure Eig.Right (E : Eig n) : Prop where
  inverse : ∀ S : Matrix (Fin n) (Fin n) ℝ, S.det ≠ 0 → E.inverse S * S = 1
  llt : ∀ S : Matrix (Fin n) (Fin n) ℝ, S.PosDef → E.llt S * (E.llt S)ᵀ = S
  isPositive : ∀ S : Matrix (Fin n) (Fin n) ℝ, Sᵀ = S → (E.isPositive S = true ↔ S.PosSemidef)

end Kalibr.Stats
