import Verif.Expr.Spec
import Verif.Tactics
import Mathlib.Analysis.Matrix.Normed
import Mathlib.Analysis.Calculus.FDeriv.Mul
import Mathlib.Tactic.LinearCombination

/-!
# Derivatives of matrices, entry by entry
-/

namespace Kalibr.Exp

open Kalibr.Kin Matrix

/-- The entries of a matrix have the entries of `A'` as derivatives at zero. -/
def MDeriv {m n : Type} (A : ℝ → Matrix m n ℝ) (A' : Matrix m n ℝ) : Prop :=
  ∀ i j, HasDerivAt (fun s => A s i j) (A' i j) 0

/-- The components of a vector have the components of `v'` as derivatives at zero. -/
def VDeriv {n : Type} (v : ℝ → n → ℝ) (v' : n → ℝ) : Prop :=
  ∀ i, HasDerivAt (fun s => v s i) (v' i) 0

theorem vderiv_iff {n : Type} [Fintype n] {v : ℝ → n → ℝ} {v' : n → ℝ} : VDeriv v v' ↔ HasDerivAt v v' 0 :=
  (hasDerivAt_pi (φ := v)).symm

theorem MDeriv.congr {m n : Type} {A : ℝ → Matrix m n ℝ} {A' B' : Matrix m n ℝ} (h : MDeriv A A')
    (e : A' = B') : MDeriv A B' := e ▸ h

theorem VDeriv.congr {n : Type} {v : ℝ → n → ℝ} {v' w' : n → ℝ} (h : VDeriv v v') (e : v' = w') :
    VDeriv v w' := e ▸ h

theorem MDeriv.mul {l m n : Type} [Fintype m] {A : ℝ → Matrix l m ℝ} {A' : Matrix l m ℝ}
    {B : ℝ → Matrix m n ℝ} {B' : Matrix m n ℝ} (hA : MDeriv A A') (hB : MDeriv B B') :
    MDeriv (fun s => A s * B s) (A' * B 0 + A 0 * B') := by
  intro i j
  have h : HasDerivAt (fun s => ∑ k, A s i k * B s k j) (∑ k, (A' i k * B 0 k j + A 0 i k * B' k j)) 0 :=
    HasDerivAt.fun_sum fun k _ => (hA i k).mul (hB k j)
  simpa [Matrix.mul_apply, Finset.sum_add_distrib] using h

theorem MDeriv.mulVec {l m : Type} [Fintype m] {A : ℝ → Matrix l m ℝ} {A' : Matrix l m ℝ}
    {v : ℝ → m → ℝ} {v' : m → ℝ} (hA : MDeriv A A') (hv : VDeriv v v') :
    VDeriv (fun s => (A s).mulVec (v s)) (A'.mulVec (v 0) + (A 0).mulVec v') := by
  intro i
  have h : HasDerivAt (fun s => ∑ k, A s i k * v s k) (∑ k, (A' i k * v 0 k + A 0 i k * v' k)) 0 :=
    HasDerivAt.fun_sum fun k _ => (hA i k).mul (hv k)
  simpa [Matrix.mulVec, dotProduct, Finset.sum_add_distrib] using h

theorem MDeriv.transpose {m n : Type} {A : ℝ → Matrix m n ℝ} {A' : Matrix m n ℝ} (h : MDeriv A A') :
    MDeriv (fun s => (A s)ᵀ) A'ᵀ := fun i j => h j i

theorem MDeriv.const {m n : Type} (A : Matrix m n ℝ) : MDeriv (fun _ => A) 0 :=
  fun i j => by simpa using hasDerivAt_const (0 : ℝ) (A i j)

theorem VDeriv.const {n : Type} (v : n → ℝ) : VDeriv (fun _ => v) 0 :=
  fun i => by simpa using hasDerivAt_const (0 : ℝ) (v i)

section
attribute [local instance] Matrix.linftyOpNormedRing Matrix.linftyOpNormedAlgebra

theorem MDeriv.inv {n : Type} [Fintype n] [DecidableEq n] {A : ℝ → Matrix n n ℝ} {A' : Matrix n n ℝ}
    (h : MDeriv A A') (hu : IsUnit (A 0)) : MDeriv (fun s => (A s)⁻¹) (-((A 0)⁻¹ * A' * (A 0)⁻¹)) := by
  have hA : HasDerivAt A A' 0 := by
    have := (hasDerivAt_pi (φ := fun s i => A s i) (φ' := fun i => A' i) (x := (0 : ℝ))).mpr
      fun i => (hasDerivAt_pi (φ := fun s j => A s i j) (φ' := fun j => A' i j)).mpr fun j => h i j
    exact this
  obtain ⟨u, hu⟩ := hu
  have h1 := (hasFDerivAt_ringInverse (𝕜 := ℝ) u)
  rw [hu] at h1
  have h2 := h1.comp_hasDerivAt (0 : ℝ) hA
  have hi : ((u⁻¹ : (Matrix n n ℝ)ˣ) : Matrix n n ℝ) = (A 0)⁻¹ := by
    rw [Matrix.coe_units_inv, hu]
  have h3 : HasDerivAt (fun s => (A s)⁻¹) (-((A 0)⁻¹ * A' * (A 0)⁻¹)) 0 := by
    have e : (fun s => (A s)⁻¹) = Ring.inverse ∘ A := by
      funext s; simp [Matrix.nonsing_inv_eq_ringInverse]
    rw [e]
    refine h2.congr_deriv ?_
    simp [hi]
  intro i j
  have h4 : HasDerivAt (fun s i j => (A s)⁻¹ i j) (fun i j => (-((A 0)⁻¹ * A' * (A 0)⁻¹)) i j) 0 := h3
  exact hasDerivAt_pi.mp (hasDerivAt_pi.mp h4 i) j

end

/-! ## Rotations -/

theorem crossMx_mulVec (u v : V3) : (crossMx u).mulVec v = crossProduct u v := by
  funext i; fin_cases i <;> simp [crossMx, cross_apply, Matrix.mulVec, dotProduct, Fin.sum_univ_three] <;> ring

theorem angular_iff {C : ℝ → M3} {ω : V3} : AngularVelocity C ω 0 ↔ MDeriv C (-(crossMx ω * C 0)) := by
  constructor
  · intro h i j
    have := h (Pi.single j 1) i
    simp only [Matrix.mulVec_single_one] at this
    refine this.congr_deriv ?_
    rw [← crossMx_mulVec]
    simp [Matrix.mul_apply, Matrix.mulVec, dotProduct]
  · exact fun h => angular_of_entries h

/-- The matrix of a twist. -/
def hat (ξ : Fin 6 → ℝ) : M4 :=
  !![0, ξ 5, -ξ 4, ξ 0;
     -ξ 5, 0, ξ 3, ξ 1;
     ξ 4, -ξ 3, 0, ξ 2;
     0, 0, 0, 0]

theorem hat_mulVec (ξ : Fin 6 → ℝ) (y : V4) : (hat ξ).mulVec y =
    ![y 3 * ξ 0 - (ξ 4 * y 2 - ξ 5 * y 1), y 3 * ξ 1 - (ξ 5 * y 0 - ξ 3 * y 2),
      y 3 * ξ 2 - (ξ 3 * y 1 - ξ 4 * y 0), 0] := by
  apply ext4 <;> simp [hat, Matrix.mulVec, dotProduct, Fin.sum_univ_four] <;> ring

theorem twist_iff {T : ℝ → M4} {ξ : Fin 6 → ℝ} : TwistVelocity T ξ ↔ MDeriv T (hat ξ * T 0) := by
  unfold TwistVelocity
  simp only [← hat_mulVec]
  constructor
  · intro h i j
    have := hasDerivAt_pi.mp (h (Pi.single j 1)) i
    simp only [Matrix.mulVec_single_one] at this
    refine this.congr_deriv ?_
    simp [Matrix.mul_apply, Matrix.mulVec, dotProduct]
  · intro h v
    rw [← vderiv_iff]
    refine (h.mulVec (VDeriv.const v)).congr ?_
    simp

theorem SO3_tr {C : M3} (h : C ∈ SO3) : Cᵀ * C = 1 ∧ C * Cᵀ = 1 := by
  rw [Matrix.mem_specialOrthogonalGroup_iff, Matrix.mem_orthogonalGroup_iff] at h
  exact ⟨mul_eq_one_comm.mp h.1, h.1⟩

theorem SO3_cross {C : M3} (h : C ∈ SO3) (w : V3) : crossMx (C.mulVec w) * C = C * crossMx w := by
  have h1 := (SO3_tr h).2
  have hd : C.det = 1 := (Matrix.mem_specialOrthogonalGroup_iff.mp h).2
  have hadj : C.adjugate = Cᵀ := by
    have : C.adjugate * C = 1 := by rw [Matrix.adjugate_mul, hd, one_smul]
    calc C.adjugate = C.adjugate * (C * Cᵀ) := by rw [h1, mul_one]
      _ = Cᵀ := by rw [← mul_assoc, this, one_mul]
  have a (i j : Fin 3) : C.adjugate i j = C j i := by rw [hadj]; rfl
  have a00 := a 0 0; have a01 := a 0 1; have a02 := a 0 2
  have a10 := a 1 0; have a11 := a 1 1; have a12 := a 1 2
  have a20 := a 2 0; have a21 := a 2 1; have a22 := a 2 2
  simp [Matrix.adjugate_fin_three] at a00 a01 a02 a10 a11 a12 a20 a21 a22
  ext i j
  fin_cases i <;> fin_cases j <;>
    simp [crossMx, Matrix.mul_apply, Matrix.mulVec, dotProduct, Fin.sum_univ_three] <;>
    grind

end Kalibr.Exp
