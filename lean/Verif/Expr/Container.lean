import Verif.Expr.Props
import Verif.Jacobian.Props

/-!
# The Jacobians of an expression in a container

The blocks of an expression are handed to `JacobianContainer::add` one by one; this module puts the model of the
expressions and the model of the container (`Verif/Jacobian`) together.
-/

namespace Kalibr.Exp

open Kalibr.Kin Kalibr.Jacobian Matrix

/-- A matrix of fixed size handed over as `Eigen::MatrixXd`. -/
def toMat {m n : ℕ} (J : Matrix (Fin m) (Fin n) ℝ) : Mat ℝ :=
  ⟨m, n, fun i j => if h : i < m ∧ j < n then J ⟨i, h.1⟩ ⟨j, h.2⟩ else 0⟩

/-- The calls of `outJacobians.add(dv, J)` (e.g. EuclideanPoint.cpp:45-53), in order. -/
def addBlocks {m : ℕ} (env : Env DV ℝ) (c : Container DV ℝ) : List (Block m) → Out (Container DV ℝ)
  | [] => .ok c
  | b :: bs =>
    match addBlock env c b.1 (toMat b.2) with
    | .ok c' => addBlocks env c' bs
    | .raise => .raise
    | .ub => .ub

/-- Specification: the increments, with zero for the inactive variables. -/
noncomputable def onActive (env : Env DV ℝ) (δ : Incr) : Incr :=
  fun d => if env.active d then δ d else 0

/-- Specification: increments as the container sees them, with natural numbers as positions. -/
noncomputable def plain (δ : Incr) (d : DV) (k : ℕ) : ℝ := if h : k < d.dim then δ d ⟨k, h⟩ else 0

theorem sum_toMat {m : ℕ} {d : DV} (J : Matrix (Fin m) (Fin d.dim) ℝ) (δ : Incr) (i : Fin m) :
    ∑ k ∈ Finset.range (toMat J).cols, (toMat J).get i k * plain δ d k = J.mulVec (δ d) i := by
  show ∑ k ∈ Finset.range d.dim, _ = _
  rw [Finset.sum_range, Matrix.mulVec, dotProduct]
  refine Finset.sum_congr rfl fun k _ => ?_
  simp [toMat, plain]

/-- **C93** (container).  Adding the Jacobians of an expression to a container with the right number of rows
succeeds, whatever it held before, and adds to its linear map that of the blocks, restricted to the active
variables. -/
theorem C93_container {m : ℕ} (env : Env DV ℝ) (hd : Distinct env) (hdim : ∀ d, env.dim d = d.dim)
    (bs : List (Block m)) (a : Container DV ℝ) (ha : Reachable env a) (hr : a.rows = m) :
    ∃ c, addBlocks env a bs = .ok c ∧ Reachable env c ∧ c.rows = m ∧
      ∀ (δ : Incr) (i : Fin m),
        Jacobian.eval c (plain δ) i = Jacobian.eval a (plain δ) i + lin bs (onActive env δ) i := by
  induction bs generalizing a with
  | nil => exact ⟨a, rfl, ha, hr, fun δ i => by simp [lin]⟩
  | cons b bs ih =>
    obtain ⟨h1, h2, -⟩ := C26_addBlock env hd a ha b.1 (toMat b.2)
    have hsz : (toMat b.2).rows = a.rows ∧ (toMat b.2).cols = env.dim b.1 := ⟨hr.symm, (hdim _).symm⟩
    by_cases hact : env.active b.1 = true
    · obtain ⟨c1, e1, r1, -, -, -, s1⟩ := h1 hsz hact
      obtain ⟨c, e, hc, hrc, hs⟩ := ih c1 (.addBlock _ _ ha e1) (r1.trans hr)
      refine ⟨c, by simp only [addBlocks, e1, e], hc, hrc, fun δ i => ?_⟩
      rw [hs, s1, sum_toMat]
      simp [lin, onActive, hact, add_assoc]
    · have hact' : env.active b.1 = false := by simpa using hact
      have e1 := h2 hsz hact'
      obtain ⟨c, e, hc, hrc, hs⟩ := ih a ha hr
      refine ⟨c, by simp only [addBlocks, e1, e], hc, hrc, fun δ i => ?_⟩
      rw [hs]
      simp [lin, onActive, hact']

/-- **C93** (error terms).  Evaluate an expression, let any evaluations and Jacobians of its nodes follow, then
collect its Jacobian in an empty container: the container's linear map, at the increments `δ` of the active
variables, is the velocity of the value when the active variables are updated by `s δ` and the others by zero. -/
theorem C93_error_term {m : ℕ} (env : Env DV ℝ) (hd : Distinct env) (hdim : ∀ d, env.dim d = d.dim)
    (f : ℕ → (k : Kind) × Expr k) (x : State) {k : Kind} (e : Expr k) (hw : WF f e) (hr : Regular x e)
    (c₀ c₁ : Cache) (hs : Steps f x (Exp.eval x e c₀).2 c₁) (M : Chain m k) :
    ∃ c, addBlocks env (Container.new m) (jac x e M c₁).1 = .ok c ∧ c.rows = m ∧
      ∀ δ : Incr, ∃ ξ : Fin (tdim k) → ℝ,
        (∀ cs : ℝ → Cache, Moves k (fun s => (Exp.eval (along x (onActive env δ) s) e (cs s)).1) ξ) ∧
        ∀ i : Fin m, Jacobian.eval c (plain δ) i = M.mulVec ξ i := by
  obtain ⟨c, e1, -, hrows, hl⟩ := C93_container env hd hdim (jac x e M c₁).1 (Container.new m) (.new m) rfl
  refine ⟨c, e1, hrows, fun δ => ?_⟩
  obtain ⟨ξ, h1, h2, -⟩ := C93_jacobian f x e hw hr c₀ c₁ hs (onActive env δ)
  refine ⟨ξ, h1, fun i => ?_⟩
  rw [hl, h2]
  simp [Jacobian.eval, Container.new]

/-- Block indices for the example: by address, the kinds one after the other. -/
def demoIndex : DV → Int
  | .rot 0 => 0
  | .euc 0 => 1
  | .euc 1 => 2
  | _ => -1

/-- Witness for the hypotheses on the environment: the variables of `demoE` without the scalar are active. -/
example : ∃ env : Env DV ℝ, Distinct env ∧ (∀ d, env.dim d = d.dim) ∧ env.active (.rot 0) = true ∧
    env.active (.euc 1) = true ∧ env.active (.sca 0) = false := by
  refine ⟨⟨demoIndex, DV.dim, fun d => decide (d = .rot 0 ∨ d = .euc 0 ∨ d = .euc 1), fun _ => 1⟩, ?_, fun _ => rfl,
    by simp, by simp, by simp⟩
  intro d d' h h' hi
  simp only [decide_eq_true_eq] at h h'
  rcases h with rfl | rfl | rfl <;> rcases h' with rfl | rfl | rfl <;> simp_all [demoIndex]

end Kalibr.Exp
