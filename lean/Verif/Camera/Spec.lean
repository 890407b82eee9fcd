import Mathlib.Analysis.Calculus.FDeriv.Mul
import Mathlib.Analysis.Calculus.FDeriv.Add
import Mathlib.Analysis.Calculus.FDeriv.Pi
import Mathlib.Analysis.Calculus.Deriv.Comp
import Mathlib.Analysis.Calculus.Deriv.Inv
import Mathlib.Analysis.SpecialFunctions.Sqrt
import Mathlib.Topology.Algebra.Module.FiniteDimension
import Mathlib.LinearAlgebra.Matrix.ToLin
import Verif.Tactics

/-!
What it means for a matrix to be the derivative of a function between spaces of column vectors, and a small calculus of
gradients used to establish it.
-/

namespace Kalibr.Camera

/-- `J` is the (Fréchet) derivative of `f` at `x`, written as a matrix: row `i`, column `j` is the derivative of output
`i` in the direction of input `j`. -/
def IsJacobianAt {n m : ℕ} (f : (Fin n → ℝ) → (Fin m → ℝ)) (J : Matrix (Fin m) (Fin n) ℝ) (x : Fin n → ℝ) : Prop :=
  HasFDerivAt f (LinearMap.toContinuousLinearMap (Matrix.toLin' J)) x

/-- `a` is the gradient of the scalar function `g` at `x`. -/
def GradAt {n : ℕ} (g : (Fin n → ℝ) → ℝ) (a : Fin n → ℝ) (x : Fin n → ℝ) : Prop :=
  HasFDerivAt g (∑ j, a j • (ContinuousLinearMap.proj j : (Fin n → ℝ) →L[ℝ] ℝ)) x

variable {n m : ℕ} {x : Fin n → ℝ}

theorem isJacobianAt_iff {f : (Fin n → ℝ) → (Fin m → ℝ)} {J : Matrix (Fin m) (Fin n) ℝ} :
    IsJacobianAt f J x ↔ ∀ i, GradAt (fun y => f y i) (fun j => J i j) x := by
  unfold IsJacobianAt GradAt
  rw [hasFDerivAt_pi']
  refine forall_congr' fun i => ?_
  have : (ContinuousLinearMap.proj i).comp (LinearMap.toContinuousLinearMap (Matrix.toLin' J))
      = ∑ j, J i j • (ContinuousLinearMap.proj j : (Fin n → ℝ) →L[ℝ] ℝ) := by
    ext v
    simp [Matrix.mulVec, dotProduct]
  rw [this]

/-- A function has at most one derivative. -/
theorem IsJacobianAt.unique {f : (Fin n → ℝ) → (Fin m → ℝ)} {J K : Matrix (Fin m) (Fin n) ℝ}
    (hJ : IsJacobianAt f J x) (hK : IsJacobianAt f K x) : J = K := by
  have h := HasFDerivAt.unique hJ hK
  have : Matrix.toLin' J = Matrix.toLin' K := by
    ext v i
    have := congrArg (fun L : (Fin n → ℝ) →L[ℝ] (Fin m → ℝ) => L (Pi.single v 1) i) h
    simpa using this
  exact Matrix.toLin'.injective this

theorem GradAt.congr {g : (Fin n → ℝ) → ℝ} {a b : Fin n → ℝ} (h : GradAt g a x) (e : a = b) : GradAt g b x := e ▸ h

theorem gradAt_coord (i : Fin n) : GradAt (fun y : Fin n → ℝ => y i) (fun j => if j = i then 1 else 0) x := by
  unfold GradAt
  refine (hasFDerivAt_apply i x).congr_fderiv ?_
  ext v
  simp

theorem gradAt_const (c : ℝ) : GradAt (fun _ : Fin n → ℝ => c) (fun _ => 0) x := by
  unfold GradAt
  refine (hasFDerivAt_const c x).congr_fderiv ?_
  ext v
  simp

theorem GradAt.add {g h : (Fin n → ℝ) → ℝ} {a b : Fin n → ℝ} (hg : GradAt g a x) (hh : GradAt h b x) :
    GradAt (fun y => g y + h y) (fun j => a j + b j) x := by
  unfold GradAt at *
  refine (HasFDerivAt.fun_add hg hh).congr_fderiv ?_
  ext v
  simp [Finset.sum_add_distrib, add_mul]

theorem GradAt.neg {g : (Fin n → ℝ) → ℝ} {a : Fin n → ℝ} (hg : GradAt g a x) :
    GradAt (fun y => - g y) (fun j => - a j) x := by
  unfold GradAt at *
  refine (HasFDerivAt.fun_neg hg).congr_fderiv ?_
  ext v
  simp

theorem GradAt.sub {g h : (Fin n → ℝ) → ℝ} {a b : Fin n → ℝ} (hg : GradAt g a x) (hh : GradAt h b x) :
    GradAt (fun y => g y - h y) (fun j => a j - b j) x := by
  simpa [sub_eq_add_neg] using hg.add hh.neg

theorem GradAt.mul {g h : (Fin n → ℝ) → ℝ} {a b : Fin n → ℝ} (hg : GradAt g a x) (hh : GradAt h b x) :
    GradAt (fun y => g y * h y) (fun j => a j * h x + g x * b j) x := by
  unfold GradAt at *
  refine (HasFDerivAt.fun_mul hg hh).congr_fderiv ?_
  ext v
  simp [Finset.mul_sum, ← Finset.sum_add_distrib]
  exact Finset.sum_congr rfl fun j _ => by ring

theorem GradAt.comp {g : (Fin n → ℝ) → ℝ} {a : Fin n → ℝ} {φ : ℝ → ℝ} {φ' : ℝ} (hφ : HasDerivAt φ φ' (g x))
    (hg : GradAt g a x) : GradAt (fun y => φ (g y)) (fun j => φ' * a j) x := by
  unfold GradAt at *
  refine (hφ.comp_hasFDerivAt x hg).congr_fderiv ?_
  ext v
  simp [Finset.mul_sum, mul_assoc]

theorem GradAt.inv {g : (Fin n → ℝ) → ℝ} {a : Fin n → ℝ} (hg : GradAt g a x) (h0 : g x ≠ 0) :
    GradAt (fun y => 1 / g y) (fun j => - (1 / g x) ^ 2 * a j) x := by
  have h1 := hasDerivAt_inv h0
  have := GradAt.comp h1 hg
  simp only [one_div]
  refine this.congr ?_
  funext j
  simp [inv_pow]

theorem GradAt.div {g h : (Fin n → ℝ) → ℝ} {a b : Fin n → ℝ} (hg : GradAt g a x) (hh : GradAt h b x)
    (h0 : h x ≠ 0) : GradAt (fun y => g y / h y) (fun j => a j / h x - g x * b j / h x ^ 2) x := by
  have := hg.mul (hh.inv h0)
  simp only [div_eq_mul_one_div (g _)] at *
  refine this.congr ?_
  funext j
  field_simp
  ring

theorem GradAt.sqrt {g : (Fin n → ℝ) → ℝ} {a : Fin n → ℝ} (hg : GradAt g a x) (h0 : g x ≠ 0) :
    GradAt (fun y => √(g y)) (fun j => 1 / (2 * √(g x)) * a j) x :=
  GradAt.comp (Real.hasDerivAt_sqrt h0) hg

/-- The chain rule for a scalar function of two scalar functions. -/
theorem GradAt.comp_jac {k : ℕ} {f : (Fin k → ℝ) → ℝ} {b : Fin k → ℝ} {g : Fin k → (Fin n → ℝ) → ℝ}
    {a : Fin k → Fin n → ℝ} (hf : GradAt f b (fun i => g i x)) (hg : ∀ i, GradAt (g i) (a i) x) :
    GradAt (fun y => f (fun i => g i y)) (fun j => ∑ i, b i * a i j) x := by
  unfold GradAt at *
  have hg' := hasFDerivAt_pi.2 hg
  refine (hf.comp x hg').congr_fderiv ?_
  ext v
  simp [Finset.mul_sum, Finset.sum_mul]
  rw [Finset.sum_comm]
  exact Finset.sum_congr rfl fun j _ => Finset.sum_congr rfl fun i _ => by ring

theorem GradAt.congr_of_eventuallyEq {g h : (Fin n → ℝ) → ℝ} {a : Fin n → ℝ} (hg : GradAt g a x)
    (e : h =ᶠ[nhds x] g) : GradAt h a x := HasFDerivAt.congr_of_eventuallyEq hg e

theorem IsJacobianAt.congr_of_eventuallyEq {f g : (Fin n → ℝ) → (Fin m → ℝ)} {J : Matrix (Fin m) (Fin n) ℝ}
    (hf : IsJacobianAt f J x) (e : g =ᶠ[nhds x] f) : IsJacobianAt g J x := HasFDerivAt.congr_of_eventuallyEq hf e

theorem IsJacobianAt.comp {k : ℕ} {g : (Fin n → ℝ) → (Fin m → ℝ)} {f : (Fin m → ℝ) → (Fin k → ℝ)}
    {K : Matrix (Fin k) (Fin m) ℝ} {J : Matrix (Fin m) (Fin n) ℝ} (hf : IsJacobianAt f K (g x))
    (hg : IsJacobianAt g J x) : IsJacobianAt (fun y => f (g y)) (K * J) x := by
  unfold IsJacobianAt at *
  refine (hf.comp x hg).congr_fderiv ?_
  ext v
  simp

end Kalibr.Camera
