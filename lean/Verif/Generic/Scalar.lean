import Verif.Common
import Verif.Tactics
import Mathlib.Analysis.Calculus.Deriv.Inv
import Mathlib.Analysis.Calculus.Deriv.Add
import Mathlib.Analysis.Calculus.Deriv.Mul
import Mathlib.Algebra.BigOperators.Group.Finset.Piecewise

/-!
# Generic scalar expressions (C152)

Sources, in `/repo/aslam_optimizer/aslam_backend_expressions/include/aslam_backend_expressions/`:
`implementation/GenericScalarExpression.hpp`, `implementation/GenericScalar.hpp`, `GenericScalarExpressionNode.hpp`.

Simplifications: the scalar type is the real numbers (`FixedPointNumber` is in `Fixed.lean`).  A tree of shared nodes is
the tree of its unfolding.  `GenericScalarExpressionNodeFromVectorExpression` (lines 219-240, it passes a pointer where a
matrix is expected) is not modelled.
-/

namespace Kalibr.Generic

/-- The members of a `GenericScalar`, `GenericScalar.hpp` 60-64. -/
structure Var where
  /-- `_p` -/
  p : ℝ
  /-- `_p_p` -/
  pp : ℝ

/-- The design variables there are. -/
abbrev Store := ℕ → Var

/-- `updateImplementation`, `implementation/GenericScalar.hpp` 22-26. -/
def Var.update (v : Var) (dp : ℝ) : Var := ⟨v.p + dp, v.p⟩

/-- `revertUpdateImplementation`, `implementation/GenericScalar.hpp` 17-19. -/
def Var.revert (v : Var) : Var := ⟨v.pp, v.pp⟩

/-- `setParametersImplementation`, `implementation/GenericScalar.hpp` 62-65. -/
def Var.set (v : Var) (x : ℝ) : Var := ⟨x, v.p⟩

/-- `minimalDifferenceImplementation`, `implementation/GenericScalar.hpp` 67-71. -/
def Var.difference (v : Var) (x : ℝ) : ℝ := v.p - x

/-- Every design variable is updated with its increment. -/
def update (s : Store) (dp : ℕ → ℝ) : Store := fun i => (s i).update (dp i)

/-- The nodes of `implementation/GenericScalarExpression.hpp`. -/
inductive SExp
  | const (c : ℝ)
  | var (i : ℕ)
  | cast (a : SExp)
  | mul (a b : SExp)
  | div (a b : SExp)
  | add (a b : SExp)
  | sub (a b : SExp)
  | neg (a : SExp)

/-- `toScalarImplementation` of the nodes, `implementation/GenericScalarExpression.hpp` 69-71, 91, 108-110, 130-132,
153-155, 180-182, 207-209, and of the design variable, `implementation/GenericScalar.hpp` 29-31. -/
noncomputable def value (s : Store) : SExp → ℝ
  | .const c => c
  | .var i => (s i).p
  | .cast a => value s a
  | .mul a b => value s a * value s b
  | .div a b => value s a / value s b
  | .add a b => value s a + value s b
  | .sub a b => value s a - value s b
  | .neg a => -value s a

/-- `applyChainRule ? *applyChainRule * R : R` for a matrix `R` of one entry; without a chain rule the container has one
row. -/
def times {m : ℕ} (c : Option (Fin m → ℝ)) (r : ℝ) : Fin m → ℝ := match c with
  | some a => fun k => a k * r
  | none => fun _ => r

/-- `evaluateJacobiansImplementation` of the nodes, the blocks in the order in which they are added,
`implementation/GenericScalarExpression.hpp` 73-79, 92, 112-118, 134-140, 157-165, 184-192, 211-217, and of the design
variable, `implementation/GenericScalar.hpp` 33-41. -/
noncomputable def jac {m : ℕ} (s : Store) : SExp → Option (Fin m → ℝ) → List (ℕ × (Fin m → ℝ))
  | .const _, _ => []
  | .var i, c => [(i, match c with
      | some a => a
      | none => fun _ => 1)]
  | .cast a, c => match c with
      | some r => jac s a (some r)
      | none => jac s a (some fun _ => 1)
  | .mul a b, c => jac s a (some (times c (value s b))) ++ jac s b (some (times c (value s a)))
  | .div a b, c => jac s a (some (times c (-value s a / (value s b * value s b)))) ++ jac s b (some (times c (1 / value s b)))
  | .add a b, c => match c with
      | some r => jac s a (some r) ++ jac s b (some r)
      | none => jac s a none ++ jac s b none
  | .sub a b, c => match c with
      | some r => jac s a (some r) ++ jac s b (some (-r))
      | none => jac s a none ++ jac s b (some fun _ => -1)
  | .neg a, c => match c with
      | some r => jac s a (some (-r))
      | none => jac s a (some fun _ => -1)

/-- `getDesignVariablesImplementation` of the nodes, `implementation/GenericScalarExpression.hpp` 42-44, 57-60, 93, and of
the design variable, `implementation/GenericScalar.hpp` 43-45. -/
def vars : SExp → Finset ℕ
  | .const _ => ∅
  | .var i => {i}
  | .cast a => vars a
  | .mul a b => vars a ∪ vars b
  | .div a b => vars a ∪ vars b
  | .add a b => vars a ∪ vars b
  | .sub a b => vars a ∪ vars b
  | .neg a => vars a

/-! ## Specification -/

/-- The block of a design variable in the container: the sum of the blocks added for it. -/
noncomputable def block {m : ℕ} (l : List (ℕ × (Fin m → ℝ))) (i : ℕ) (k : Fin m) : ℝ :=
  (l.map fun b => if b.1 = i then b.2 k else 0).sum

/-- Every quotient in the expression is one of expressions without design variables. -/
def ConstantQuotients : SExp → Prop
  | .const _ => True
  | .var _ => True
  | .cast a => ConstantQuotients a
  | .mul a b => ConstantQuotients a ∧ ConstantQuotients b
  | .div a b => vars a = ∅ ∧ vars b = ∅ ∧ ConstantQuotients a ∧ ConstantQuotients b
  | .add a b => ConstantQuotients a ∧ ConstantQuotients b
  | .sub a b => ConstantQuotients a ∧ ConstantQuotients b
  | .neg a => ConstantQuotients a

/-! ## Proofs -/

/-- The change of the row `k` of the chain rule times the expression that the blocks predict. -/
noncomputable def predict {m : ℕ} (l : List (ℕ × (Fin m → ℝ))) (dx : ℕ → ℝ) (k : Fin m) : ℝ := (l.map fun b => b.2 k * dx b.1).sum

theorem predict_append {m : ℕ} (l r : List (ℕ × (Fin m → ℝ))) (dx : ℕ → ℝ) (k : Fin m) :
    predict (l ++ r) dx k = predict l dx k + predict r dx k := by
  unfold predict
  rw [List.map_append, List.sum_append]

theorem block_predict {m : ℕ} (l : List (ℕ × (Fin m → ℝ))) (dx : ℕ → ℝ) (k : Fin m) (V : Finset ℕ) (h : ∀ b ∈ l, b.1 ∈ V) :
    ∑ i ∈ V, block l i k * dx i = predict l dx k := by
  induction l with
  | nil => simp [block, predict]
  | cons b l ih =>
    have h1 := ih fun c hc => h c (by simp [hc])
    have h2 : predict (b :: l) dx k = b.2 k * dx b.1 + predict l dx k := by simp [predict]
    have h3 (i : ℕ) : block (b :: l) i k * dx i = (if b.1 = i then b.2 k * dx i else 0) + block l i k * dx i := by
      unfold block
      rw [List.map_cons, List.sum_cons, add_mul]
      congr 1
      by_cases hb : b.1 = i
      · rw [if_pos hb, if_pos hb]
      · rw [if_neg hb, if_neg hb, zero_mul]
    simp only [h3]
    rw [Finset.sum_add_distrib, h1, h2, Finset.sum_ite_eq, if_pos (h b (by simp))]

theorem jac_vars {m : ℕ} (s : Store) (e : SExp) (c : Option (Fin m → ℝ)) : ∀ b ∈ jac s e c, b.1 ∈ vars e := by
  induction e generalizing c with
  | const x => intro b hb; simp [jac] at hb
  | var i => intro b hb; simp [jac] at hb; simp [hb, vars]
  | cast a ih => cases c <;> exact ih _
  | mul a b iha ihb =>
    intro x hx
    rw [vars, Finset.mem_union]
    rcases List.mem_append.1 hx with h | h
    · exact .inl (iha _ x h)
    · exact .inr (ihb _ x h)
  | div a b iha ihb =>
    intro x hx
    rw [vars, Finset.mem_union]
    rcases List.mem_append.1 hx with h | h
    · exact .inl (iha _ x h)
    · exact .inr (ihb _ x h)
  | add a b iha ihb =>
    intro x hx
    rw [vars, Finset.mem_union]
    cases c <;> (rcases List.mem_append.1 hx with h | h; exacts [.inl (iha _ x h), .inr (ihb _ x h)])
  | sub a b iha ihb =>
    intro x hx
    rw [vars, Finset.mem_union]
    cases c <;> (rcases List.mem_append.1 hx with h | h; exacts [.inl (iha _ x h), .inr (ihb _ x h)])
  | neg a ih => cases c <;> exact ih _

theorem value_closed (s s' : Store) (e : SExp) (h : vars e = ∅) : value s e = value s' e := by
  induction e with
  | const x => rfl
  | var i => simp [vars] at h
  | cast a ih => exact ih h
  | mul a b iha ihb => rw [vars, Finset.union_eq_empty] at h; rw [value, value, iha h.1, ihb h.2]
  | div a b iha ihb => rw [vars, Finset.union_eq_empty] at h; rw [value, value, iha h.1, ihb h.2]
  | add a b iha ihb => rw [vars, Finset.union_eq_empty] at h; rw [value, value, iha h.1, ihb h.2]
  | sub a b iha ihb => rw [vars, Finset.union_eq_empty] at h; rw [value, value, iha h.1, ihb h.2]
  | neg a ih => rw [value, value, ih h]

theorem jac_closed {m : ℕ} (s : Store) (e : SExp) (c : Option (Fin m → ℝ)) (h : vars e = ∅) : jac s e c = [] := by
  rw [List.eq_nil_iff_forall_not_mem]
  intro b hb
  have := jac_vars s e c b hb
  rw [h] at this
  simp at this

theorem update_zero (s : Store) (dx : ℕ → ℝ) (e : SExp) : value (update s fun i => 0 * dx i) e = value s e := by
  induction e with
  | const x => rfl
  | var i => simp [value, update, Var.update]
  | cast a ih => exact ih
  | mul a b iha ihb => rw [value, iha, ihb]; rfl
  | div a b iha ihb => rw [value, iha, ihb]; rfl
  | add a b iha ihb => rw [value, iha, ihb]; rfl
  | sub a b iha ihb => rw [value, iha, ihb]; rfl
  | neg a ih => rw [value, ih]; rfl

/-- The derivative of an expression along an increment. -/
noncomputable def rate (s : Store) (dx : ℕ → ℝ) : SExp → ℝ
  | .const _ => 0
  | .var i => dx i
  | .cast a => rate s dx a
  | .mul a b => rate s dx a * value s b + value s a * rate s dx b
  | .div _ _ => 0
  | .add a b => rate s dx a + rate s dx b
  | .sub a b => rate s dx a - rate s dx b
  | .neg a => -rate s dx a

theorem rate_deriv (s : Store) (dx : ℕ → ℝ) (e : SExp) (he : ConstantQuotients e) :
    HasDerivAt (fun t => value (update s fun i => t * dx i) e) (rate s dx e) 0 := by
  induction e with
  | const x => exact hasDerivAt_const _ _
  | var i =>
    show HasDerivAt (fun t : ℝ => (s i).p + t * dx i) (dx i) 0
    simpa using ((hasDerivAt_id (0 : ℝ)).mul_const (dx i)).const_add (s i).p
  | cast a ih => exact ih he
  | mul a b iha ihb =>
    have := (iha he.1).mul (ihb he.2)
    simp only [update_zero] at this
    exact this
  | div a b iha ihb =>
    have : (fun t : ℝ => value (update s fun i => t * dx i) (.div a b)) = fun _ => value s (.div a b) := by
      funext t
      exact value_closed _ _ _ (by rw [vars, he.1, he.2.1]; rfl)
    rw [this]
    exact hasDerivAt_const _ _
  | add a b iha ihb => exact (iha he.1).add (ihb he.2)
  | sub a b iha ihb => exact (iha he.1).sub (ihb he.2)
  | neg a ih => exact (ih he).neg

theorem predict_rate {m : ℕ} (s : Store) (dx : ℕ → ℝ) (e : SExp) (he : ConstantQuotients e) (c : Option (Fin m → ℝ)) (k : Fin m) :
    predict (jac s e c) dx k = times c (rate s dx e) k := by
  induction e generalizing c with
  | const x => cases c <;> simp [jac, predict, rate, times]
  | var i => cases c <;> simp [jac, predict, rate, times]
  | cast a ih => cases c <;> · rw [jac, ih he]; simp [times, rate]
  | mul a b iha ihb => cases c <;> · rw [jac, predict_append, iha he.1, ihb he.2]; simp only [times, rate]; ring
  | div a b iha ihb => cases c <;> · rw [jac, jac_closed _ _ _ he.1, jac_closed _ _ _ he.2.1]; simp [times, rate, predict]
  | add a b iha ihb => cases c <;> · rw [jac, predict_append, iha he.1, ihb he.2]; simp only [times, rate] <;> ring
  | sub a b iha ihb => cases c <;> · rw [jac, predict_append, iha he.1, ihb he.2]; simp only [times, rate, Pi.neg_apply]; ring
  | neg a ih => cases c <;> · rw [jac, ih he]; simp only [times, rate, Pi.neg_apply]; ring

/-- C152: the blocks an expression adds for a chain rule give the derivative of the chain rule times the expression along
every increment.  Missing: quotients with design variables, see `C152_quotient_counterexample`. -/
theorem C152_jacobian_partial {m : ℕ} (s : Store) (e : SExp) (he : ConstantQuotients e) (c : Fin m → ℝ) (dx : ℕ → ℝ) (k : Fin m) :
    HasDerivAt (fun t => c k * value (update s fun i => t * dx i) e) (∑ i ∈ vars e, block (jac s e (some c)) i k * dx i) 0 := by
  rw [block_predict _ _ _ _ (jac_vars s e _), predict_rate s dx e he]
  exact (rate_deriv s dx e he).const_mul (c k)

/-- C152: without chain rule the blocks give the derivative of the expression.  Missing: as above. -/
theorem C152_plain_jacobian_partial (s : Store) (e : SExp) (he : ConstantQuotients e) (dx : ℕ → ℝ) :
    HasDerivAt (fun t => value (update s fun i => t * dx i) e) (∑ i ∈ vars e, block (jac (m := 1) s e none) i 0 * dx i) 0 := by
  rw [block_predict _ _ _ _ (jac_vars s e _), predict_rate s dx e he]
  exact rate_deriv s dx e he

/-- C152 is false of quotients: the factors of dividend and divisor are exchanged.  Whenever the divisor is not zero and not
the opposite of the dividend, the block of the dividend is not the derivative. -/
theorem C152_quotient_counterexample (s : Store) (h0 : (s 1).p ≠ 0) (h1 : (s 0).p ≠ -(s 1).p) :
    ∃ d, HasDerivAt (fun t => value (update s fun i => t * if i = 0 then 1 else 0) (.div (.var 0) (.var 1))) d 0 ∧
      block (jac (m := 1) s (.div (.var 0) (.var 1)) none) 0 0 ≠ d := by
  refine ⟨1 / (s 1).p, ?_, ?_⟩
  · have h2 : (fun t => value (update s fun i => t * if i = 0 then 1 else 0) (.div (.var 0) (.var 1))) =
        fun t => ((s 0).p + t) / (s 1).p := by
      funext t
      simp [value, update, Var.update]
    rw [h2]
    exact ((hasDerivAt_id (0 : ℝ)).const_add (s 0).p).div_const _
  · have h2 : block (jac (m := 1) s (.div (.var 0) (.var 1)) none) 0 0 = -(s 0).p / ((s 1).p * (s 1).p) := by
      simp [jac, block, times, value]
    rw [h2]
    intro h3
    rw [div_eq_div_iff (mul_ne_zero h0 h0) h0] at h3
    apply h1
    have h4 : -(s 0).p * (s 1).p = (s 1).p * (s 1).p := by linarith
    have := mul_right_cancel₀ h0 h4
    linarith

/-- C152: a reverted update leaves the value as it was, the difference to the value before an update is the increment, and a
value that is set is read back. -/
theorem C152_variable (v : Var) (dp x : ℝ) : (v.update dp).revert.p = v.p ∧ (v.update dp).difference v.p = dp ∧
    (v.set x).p = x ∧ (v.set x).revert.p = v.p ∧ v.difference v.p = 0 := by
  refine ⟨rfl, ?_, rfl, rfl, ?_⟩
  · simp [Var.update, Var.difference]
  · simp [Var.difference]

example : ConstantQuotients (.sub (.mul (.var 0) (.div (.const 1) (.const 3))) (.neg (.cast (.mul (.var 1) (.var 0))))) := by
  simp [ConstantQuotients, vars]

example : ∃ s : Store, (s 1).p ≠ 0 ∧ (s 0).p ≠ -(s 1).p := ⟨fun _ => ⟨1, 1⟩, by norm_num, by norm_num⟩

end Kalibr.Generic
