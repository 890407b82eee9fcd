import Verif.Solvers.Model
import Verif.CCM.Spec

/-!
# What a linear system solver is for

The Jacobian `J` and the error `e` of a linearised problem, the damping `c`: the step wanted is the one that makes
`‖J x - e‖² + ‖c x‖²` least.
-/

namespace Kalibr.Solvers

open Jacobian CCM

variable {D : Type}

/-- `‖A x - b‖²`. -/
def sq (A : Mat ℝ) (b x : Nat → ℝ) : ℝ :=
  ∑ k ∈ Finset.range A.rows, (∑ i ∈ Finset.range A.cols, A.get k i * x i - b k) ^ 2

/-- `‖J x - e‖² + ‖c x‖²`. -/
def damped (J : Mat ℝ) (e c x : Nat → ℝ) : ℝ := sq J e x + ∑ i ∈ Finset.range J.cols, (c i * x i) ^ 2

/-- The damped problem determines the step. -/
def Determined (J : Mat ℝ) (c : Nat → ℝ) : Prop :=
  ∀ x, damped J (fun _ => 0) c x = 0 → ∀ i < J.cols, x i = 0

/-- What is expected of CHOLMOD: the analysis works; a solution returned solves `A Aᵀ x = b`; there is one if `A` has full row rank. -/
structure Cholmod.Right (lib : Cholmod) : Prop where
  analyzes : ∀ m, lib.analyzes m = true
  solves : ∀ (m : CCM ℝ) (M : Mat ℝ) (b x : Nat → ℝ), Is m M → lib.solve m b = some x →
    ∀ i < M.rows, ∑ k ∈ Finset.range M.cols, M.get i k * ∑ j ∈ Finset.range M.rows, M.get j k * x j = b i
  total : ∀ (m : CCM ℝ) (M : Mat ℝ) (b : Nat → ℝ), Is m M →
    (∀ x : Nat → ℝ, (∀ k < M.cols, ∑ j ∈ Finset.range M.rows, M.get j k * x j = 0) → ∀ i < M.rows, x i = 0) → lib.solve m b ≠ none

/-- What is expected of SuiteSparseQR with the tolerance `tol`: the analysis works, a solution returned is one in the sense of least squares, and there is
one if the columns are independent. A tolerance above zero gives this only for matrices none of whose columns it drops. -/
structure Qr.Right (lib : Qr) (tol : ℝ) : Prop where
  analyzes : ∀ m, lib.analyzes m = true
  solves : ∀ (A : Mat ℝ) (b x : Nat → ℝ), lib.solve tol A b = some x → ∀ y, sq A b x ≤ sq A b y
  total : ∀ (A : Mat ℝ) (b : Nat → ℝ),
    (∀ x : Nat → ℝ, (∀ k < A.rows, ∑ j ∈ Finset.range A.cols, A.get k j * x j = 0) → ∀ i < A.cols, x i = 0) → lib.solve tol A b ≠ none

/-- The transposed Jacobian of the problem: those of the error terms side by side. -/
def stackT (env : Env D ℝ) (cb : D → Nat) (rows : Nat) (js : List (Container D ℝ)) : Mat ℝ :=
  js.foldl (fun M jc => hcat M (jacT env cb rows jc)) (Mat.zero rows 0)

/-- The containers filled by the error terms: each has the dimension of its term and exactly its active variables. -/
def Matches (env : Env D ℝ) (es : List (Nat × List D)) (js : List (Container D ℝ)) : Prop :=
  List.Forall₂ (fun e j => j.rows = e.1 ∧ j.map.map (·.1) = activeSorted env e.2 ∧ Ordered env j ∧ Fits env j) es js

/-! ## Histories -/

/-- What can be called after `initMatrixStructure`. -/
inductive Op (D : Type)
  | evaluate (e : List ℝ)
  | build (order : List Nat) (js : List (Container D ℝ))
  | setConditioner (d : List ℝ)
  | setConstant (x : ℝ)
  | solve

/-- The demands on arguments: the error vector has the dimension of the problem, each error term is linearised once, the conditioner has the right size. -/
def Op.Good (env : Env D ℝ) (rows : Nat) (es : List (Nat × List D)) : Op D → Prop
  | .evaluate e => e.length = (es.map (·.1)).sum
  | .build order js => order.Perm (List.range es.length) ∧ Matches env es js
  | .setConditioner d => d.length = rows
  | _ => True

/-- What the user has in mind: the error vector, the system built last (Jacobians, and the error vector at that time), and the conditioner. -/
structure Now (D : Type) where
  e : List ℝ
  built : Option (List (Container D ℝ) × List ℝ)
  cond : List ℝ

/-- What each call is meant to do. -/
def Now.step (rows : Nat) (a : Now D) : Op D → Now D
  | .evaluate e => { a with e := e }
  | .build _ js => { a with built := some (js, a.e) }
  | .setConditioner d => { a with cond := d }
  | .setConstant x => { a with cond := List.replicate rows x }
  | .solve => a

/-- In this history the solver is only called where `P` holds. -/
def SolvesAt (rows : Nat) (P : Now D → Prop) : Now D → List (Op D) → Prop
  | _, [] => True
  | a, o :: os => (o = .solve → P a) ∧ SolvesAt rows P (a.step rows o) os

/-- The same calls on the object; the result of `solve` is not looked at here. -/
def Sparse.step (solve : Sparse → Out (Sparse × Option (Nat → ℝ))) (s : Sparse) : Op D → Out Sparse
  | .evaluate e => .ok (s.evaluate e)
  | .build order js => s.build order js
  | .setConditioner d => s.setConditioner d
  | .setConstant x => .ok (s.setConstant x)
  | .solve => (solve s).bind fun r => .ok r.1

end Kalibr.Solvers
