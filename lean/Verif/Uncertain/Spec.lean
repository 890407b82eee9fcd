import Verif.Uncertain.Model
import Mathlib.Analysis.InnerProductSpace.PiL2
import Mathlib.Analysis.InnerProductSpace.Basic

/-!
# What a covariance is, and when an operation carries it over

Random variables of mean zero and finite variance form a real inner product space, the inner product of two of
them being their covariance.  A random vector is a family of elements of such a space.
-/

namespace Kalibr.Unc

open Kalibr.Kin Kalibr.Exp Matrix

section
variable {H : Type} [NormedAddCommGroup H] [InnerProductSpace ℝ H] {m n : ℕ}

/-- Specification: the covariance matrix of a random vector. -/
def Cov (δ : Fin n → H) : Matrix (Fin n) (Fin n) ℝ := fun i j => inner ℝ (δ i) (δ j)

/-- Specification: two random vectors are uncorrelated. -/
def Uncorrelated (δ : Fin n → H) (ε : Fin m → H) : Prop := ∀ i j, inner ℝ (δ i) (ε j) = 0

/-- Specification: a matrix times a random vector. -/
def act (A : Matrix (Fin m) (Fin n) ℝ) (δ : Fin n → H) : Fin m → H := fun i => ∑ j, A i j • δ j

end

/-- Specification: for a type of values, what it means that a curve starts with a velocity. -/
abbrev Motion (X : Type) (n : ℕ) := (ℝ → X) → (Fin n → ℝ) → Prop

/-- Specification: vectors. -/
def vecMotion (n : ℕ) : Motion (Fin n → ℝ) n := fun c ξ => HasDerivAt c ξ 0

/-- Specification: numbers. -/
def scalMotion : Motion ℝ 1 := fun c ξ => HasDerivAt c (ξ 0) 0

/-- Specification: transformations.  The first three numbers are the velocity of the origin, the others the
angular velocity, both seen from the frame on the left (see `TwistVelocity`). -/
def trafoMotion : Motion Trafo 6 := fun c ξ => (∀ s, (c s).Valid) ∧ TwistVelocity (fun s => (c s).T) ξ

section
variable {X Y Z : Type} {n m k : ℕ}

/-- Specification: `A` is the derivative of `f` at `x`. -/
def Deriv1 (MX : Motion X n) (MZ : Motion Z k) (f : X → Z) (x : X) (A : Matrix (Fin k) (Fin n) ℝ) : Prop :=
  ∀ c ξ, c 0 = x → MX c ξ → MZ (fun s => f (c s)) (A.mulVec ξ)

/-- Specification: `A` and `B` are the derivatives of `f` at `x` and `y`. -/
def Deriv2 (MX : Motion X n) (MY : Motion Y m) (MZ : Motion Z k) (f : X → Y → Z) (x : X) (y : Y)
    (A : Matrix (Fin k) (Fin n) ℝ) (B : Matrix (Fin k) (Fin m) ℝ) : Prop :=
  ∀ c ξ d η, c 0 = x → MX c ξ → d 0 = y → MY d η → MZ (fun s => f (c s) (d s)) (A.mulVec ξ + B.mulVec η)

/-- Specification: `V` is the covariance, to first order, of `f` at a disturbed `x` whose disturbance has
covariance `U`. -/
structure Propagates1 (MX : Motion X n) (MZ : Motion Z k) (f : X → Z) (x : X)
    (U : Matrix (Fin n) (Fin n) ℝ) (V : Matrix (Fin k) (Fin k) ℝ) : Prop where
  deriv : ∃ A, Deriv1 MX MZ f x A
  cov : ∀ A, Deriv1 MX MZ f x A → ∀ (H : Type) [NormedAddCommGroup H] [InnerProductSpace ℝ H]
    (δ : Fin n → H), Cov δ = U → Cov (act A δ) = V

/-- Specification: `V` is the covariance, to first order, of `f` at a disturbed `x` and a disturbed `y` whose
disturbances are uncorrelated and have the covariances `U` and `W`. -/
structure Propagates2 (MX : Motion X n) (MY : Motion Y m) (MZ : Motion Z k) (f : X → Y → Z) (x : X) (y : Y)
    (U : Matrix (Fin n) (Fin n) ℝ) (W : Matrix (Fin m) (Fin m) ℝ) (V : Matrix (Fin k) (Fin k) ℝ) : Prop where
  deriv : ∃ A B, Deriv2 MX MY MZ f x y A B
  cov : ∀ A B, Deriv2 MX MY MZ f x y A B → ∀ (H : Type) [NormedAddCommGroup H] [InnerProductSpace ℝ H]
    (δ : Fin n → H) (ε : Fin m → H), Cov δ = U → Cov ε = W → Uncorrelated δ ε → Cov (act A δ + act B ε) = V

end

/-- Specification: a variance as a matrix. -/
def mat1 (s : ℝ) : Matrix (Fin 1) (Fin 1) ℝ := fun _ _ => s

end Kalibr.Unc
