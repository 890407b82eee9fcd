import Verif.Camera.OmniProps
import Verif.Camera.EucmProps
import Verif.Camera.DsProps
import Verif.Camera.FovProps
import Verif.Reproj.Model
import Mathlib.Analysis.Calculus.FDeriv.Prod

/-! Specification for C106: several Jacobians that together are the derivative of a function of several vectors. -/

namespace Kalibr.Reproj

open Kalibr.Camera

/-- Specification: near `(x, y, z)` the function gives a keypoint, and the keypoint is differentiable there in all its
arguments together, with derivative `A dx + B dy + C dz`. -/
def IsJointJacobianAt {a b c : ℕ} (f : (Fin a → ℝ) → (Fin b → ℝ) → (Fin c → ℝ) → Option V2)
    (A : Matrix (Fin 2) (Fin a) ℝ) (B : Matrix (Fin 2) (Fin b) ℝ) (C : Matrix (Fin 2) (Fin c) ℝ)
    (x : Fin a → ℝ) (y : Fin b → ℝ) (z : Fin c → ℝ) : Prop :=
  ∃ g : (Fin a → ℝ) × (Fin b → ℝ) × (Fin c → ℝ) → V2,
    (∀ᶠ t in nhds (x, y, z), f t.1 t.2.1 t.2.2 = some (g t)) ∧
    ∃ L : (Fin a → ℝ) × (Fin b → ℝ) × (Fin c → ℝ) →L[ℝ] V2,
      (∀ t, L t = A.mulVec t.1 + B.mulVec t.2.1 + C.mulVec t.2.2) ∧ HasFDerivAt g L (x, y, z)

/-- If the function is differentiable in all arguments together, the Jacobians with respect to the single arguments
are the joint one. -/
theorem joint_of_partials {a b c : ℕ} {f : (Fin a → ℝ) → (Fin b → ℝ) → (Fin c → ℝ) → Option V2}
    {g : (Fin a → ℝ) × (Fin b → ℝ) × (Fin c → ℝ) → V2}
    {A : Matrix (Fin 2) (Fin a) ℝ} {B : Matrix (Fin 2) (Fin b) ℝ} {C : Matrix (Fin 2) (Fin c) ℝ}
    {x : Fin a → ℝ} {y : Fin b → ℝ} {z : Fin c → ℝ}
    (hev : ∀ᶠ t in nhds (x, y, z), f t.1 t.2.1 t.2.2 = some (g t)) (hd : DifferentiableAt ℝ g (x, y, z))
    (hA : IsPartialJacobianAt (fun v => f v y z) A x) (hB : IsPartialJacobianAt (fun w => f x w z) B y)
    (hC : IsPartialJacobianAt (fun p => f x y p) C z) : IsJointJacobianAt f A B C x y z := by
  refine ⟨g, hev, fderiv ℝ g (x, y, z), fun t => ?_, hd.hasFDerivAt⟩
  have key {n : ℕ} {h : (Fin n → ℝ) → (Fin a → ℝ) × (Fin b → ℝ) × (Fin c → ℝ)} {M : Matrix (Fin 2) (Fin n) ℝ}
      {u : Fin n → ℝ} (i : (Fin n → ℝ) →L[ℝ] (Fin a → ℝ) × (Fin b → ℝ) × (Fin c → ℝ)) (hi : HasFDerivAt h i u)
      (hu : h u = (x, y, z)) (hM : IsPartialJacobianAt (fun v => f (h v).1 (h v).2.1 (h v).2.2) M u) (v : Fin n → ℝ) :
      fderiv ℝ g (x, y, z) (i v) = M.mulVec v := by
    obtain ⟨g', h1, h2⟩ := hM
    have hg : HasFDerivAt g (fderiv ℝ g (x, y, z)) (h u) := by rw [hu]; exact hd.hasFDerivAt
    have e : g' =ᶠ[nhds u] fun v => g (h v) := by
      have ht : Filter.Tendsto h (nhds u) (nhds (x, y, z)) := by rw [← hu]; exact hi.continuousAt
      filter_upwards [h1, ht.eventually hev] with v hv hv'
      rw [hv'] at hv
      exact (Option.some.inj hv).symm
    have h3 := (hg.comp u hi).unique (h2.congr_of_eventuallyEq e.symm)
    have := congrArg (fun L : (Fin n → ℝ) →L[ℝ] V2 => L v) h3
    simpa using this
  have h1 := key (h := fun v => (v, y, z)) (u := x) (.inl ℝ _ _)
    (by simpa using (hasFDerivAt_prodMk_left (𝕜 := ℝ) x (y, z))) rfl hA t.1
  have h2 := key (h := fun w => (x, w, z)) (u := y) ((ContinuousLinearMap.inr ℝ _ _).comp (.inl ℝ _ _))
    ((hasFDerivAt_prodMk_right (𝕜 := ℝ) x (y, z)).comp y (hasFDerivAt_prodMk_left (𝕜 := ℝ) y z)) rfl hB t.2.1
  have h3 := key (h := fun w => (x, y, w)) (u := z) ((ContinuousLinearMap.inr ℝ _ _).comp (.inr ℝ _ _))
    ((hasFDerivAt_prodMk_right (𝕜 := ℝ) x (y, z)).comp z (hasFDerivAt_prodMk_right (𝕜 := ℝ) y z)) rfl hC t.2.2
  rw [← h1, ← h2, ← h3, ← map_add, ← map_add]
  congr 1
  simp

/-- Specification: the keypoint a camera gives for `q` after its projection was updated by `v` and its distortion by
`w`. -/
def keypointAfter {C : Type} {ni nd : ℕ} (K : CamClass C ni nd) (cam : C) (v : Fin ni → ℝ) (w : Fin nd → ℝ) (q : V4) :
    Option V2 :=
  match K.updateD (K.updateI cam v) w with
  | .ok c => K.projectH c q
  | _ => none

/-- Specification: at the homogeneous point `p` the camera gives all three Jacobians, and together they are the
derivative of the keypoint with respect to the update of the projection, the update of the distortion and the point. -/
def JacobiansCorrect {C : Type} {ni nd : ℕ} (K : CamClass C ni nd) (cam : C) (p : V4) : Prop :=
  ∃ JI JD J, K.intrinsicsHJ cam p = some JI ∧ K.distortionHJ cam p = some JD ∧ K.projectHJac cam p = some J ∧
    IsJointJacobianAt (keypointAfter K cam) JI JD J 0 0 p

end Kalibr.Reproj
