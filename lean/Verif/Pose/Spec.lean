import Verif.Pose.Model
import Verif.Expr.Spec

/-!
# Pose splines: specification

What it means that blocks of numbers are the Jacobian of a value with respect to the coefficients of the spline.
-/

namespace Kalibr.Pose

open Kalibr.Kin Kalibr.BSpline Matrix

/-- The orientation families of the library at the parameters `p`; for rotation vectors those longer than the
threshold `1e-14` of `parametersToRotationMatrix`. -/
inductive Supported : RotKin → V3 → Prop
  | ypr (p : V3) : Supported ypr p
  | zyx (p : V3) : Supported zyx p
  | zxy (p : V3) : Supported zxy p
  | rodrigues (p : V3) : Supported rodrigues p
  | rotationVector (p : V3) (h : 1 / 10 ^ 14 < norm3 p) : Supported rotationVector p

/-- The spline after `ε` times the increment `δ i` was added to every coefficient `i`. -/
noncomputable def PoseSpline.perturb (P : PoseSpline) (δ : ℕ → V6) (ε : ℝ) : PoseSpline :=
  { P with spline := { P.spline with coeffs := P.spline.coeffs.mapIdx fun i c => c + ε • δ i } }

/-- What a Jacobian for the `k` coefficients from `i` on says about an increment. -/
noncomputable def total {m : ℕ} (k : ℕ) (J : Blocks m) (i : ℕ) (δ : ℕ → V6) : Fin m → ℝ :=
  ∑ c ∈ Finset.range k, (J c).mulVec (δ (i + c))

/-- The result of a method together with its Jacobian is right: the method that returns the value alone returns
`x`; and after every increment of the coefficients the value that this method then returns moves, in the sense of
`moves`, with the velocity that the Jacobian announces. -/
def RightJacobian {α : Type} {m : ℕ} (value : PoseSpline → Out α) (moves : (ℝ → α) → (Fin m → ℝ) → Prop)
    (P : PoseSpline) (r : α × Blocks m × ℕ) : Prop :=
  value P = .ok r.1 ∧ ∀ δ : ℕ → V6, ∃ f : ℝ → α, (∀ ε, value (P.perturb δ ε) = .ok (f ε)) ∧ f 0 = r.1 ∧
    moves f (total P.spline.order r.2.1 r.2.2 δ)

/-- A vector moves with the velocity `v`. -/
def VMoves {n : ℕ} (f : ℝ → Fin n → ℝ) (v : Fin n → ℝ) : Prop := HasDerivAt f v 0

/-- A rotation matrix moves with the angular velocity `ω`, in the convention of the library. -/
def RMoves (f : ℝ → M3) (ω : V3) : Prop := AngularVelocity f ω 0

/-- A transformation moves with the twist `ξ`. -/
def TMoves (f : ℝ → M4) (ξ : Fin 6 → ℝ) : Prop := Exp.TwistVelocity f ξ

end Kalibr.Pose
