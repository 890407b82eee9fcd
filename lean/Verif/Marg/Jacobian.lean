import Verif.Marg.Build
import Mathlib.Analysis.Calculus.Deriv.Add
import Mathlib.Analysis.Calculus.Deriv.Mul

/-!
# The Jacobian of the prior error term
-/

namespace Kalibr.Marg

open Finset

theorem jacobians_sum {K : Type} [Field K] (P : Prior K) (dim : Nat → Nat) (M : Nat → Nat → Nat → K) (u : Nat → Nat → K) (i : Nat)
    (l : List Nat) (col : Nat) :
    ((P.jacobians dim M l col).map fun q => ∑ c ∈ range (dim q.1), q.2 i c * u q.1 c).sum =
      ∑ k ∈ range l.length, ∑ e ∈ range (dim (l.getD k 0)), P.R i (col + (dims dim (l.take k) + e)) *
        ∑ c ∈ range (dim (l.getD k 0)), M (l.getD k 0) e c * u (l.getD k 0) c := by
  induction l generalizing col with
  | nil => simp [Prior.jacobians]
  | cons v vs ih =>
    rw [Prior.jacobians, List.map_cons, List.sum_cons, ih, List.length_cons, sum_range_succ', add_comm]
    congr 1
    · refine sum_congr rfl fun k _ => ?_
      simp only [List.getD_cons_succ, List.take_succ_cons]
      refine sum_congr rfl fun e _ => ?_
      rw [show dims dim (v :: List.take k vs) = dim v + dims dim (List.take k vs) by simp [dims]]
      congr 2
      omega
    · simp only [List.getD_cons_zero, List.take_zero, dims, List.map_nil, List.sum_nil, Nat.zero_add]
      simp only [sum_mul, mul_sum]
      rw [sum_comm]
      exact sum_congr rfl fun e _ => sum_congr rfl fun c _ => by ring

/-- **C116**: the Jacobians that the new error term reports are the derivatives of its error: if the differences of its
variables move at the rates given by the Jacobians of the differences, the error moves at the rate given by the reported
blocks. -/
theorem C116_jacobian (P : Prior ℝ) (dim : Nat → Nat) (hsize : P.size = dims dim P.vars) (M : Nat → Nat → Nat → ℝ)
    (δ : ℝ → Nat → Nat → ℝ) (u : Nat → Nat → ℝ) (t : ℝ)
    (h : ∀ v ∈ P.vars, ∀ e, e < dim v → HasDerivAt (fun s => δ s v e) (∑ c ∈ range (dim v), M v e c * u v c) t) (i : Nat) :
    HasDerivAt (fun s => P.error dim (δ s) i)
      ((P.jacobians dim M P.vars 0).map fun q => ∑ c ∈ range (dim q.1), q.2 i c * u q.1 c).sum t := by
  have e : ∀ s, P.error dim (δ s) i = -P.d i + ∑ k ∈ range P.vars.length, ∑ e ∈ range (dim (P.vars.getD k 0)),
      P.R i (dims dim (P.vars.take k) + e) * δ s (P.vars.getD k 0) e := by
    intro s
    rw [Prior.error, hsize, sum_lay, neg_sub, sub_eq_neg_add]
    congr 1
    refine sum_congr rfl fun k hk => sum_congr rfl fun e he => ?_
    congr 1
    exact flat_get (δ s) (getD_some (mem_range.1 hk)) (mem_range.1 he)
  rw [jacobians_sum]
  simp only [e, Nat.zero_add]
  refine HasDerivAt.const_add _ ?_
  refine HasDerivAt.fun_sum fun k hk => HasDerivAt.fun_sum fun e he => ?_
  refine HasDerivAt.const_mul _ (h _ ?_ e (mem_range.1 he))
  exact List.mem_of_getElem? (getD_some (mem_range.1 hk))

/-- The hypotheses of `C116_jacobian`, with two variables that move at constant rates. -/
example (u : Nat → Nat → ℝ) : ∃ rate, HasDerivAt
    (fun s => (Prior.mk [3, 1] 3 (fun _ => 1) (fun i j => i + 2 * j) : Prior ℝ).error (fun v => if v = 3 then 2 else 1)
      (fun v j => s * u v j) 0) rate 0 :=
  ⟨_, C116_jacobian ⟨[3, 1], 3, fun _ => 1, fun i j => i + 2 * j⟩ (fun v => if v = 3 then 2 else 1) (by simp [dims])
    (fun _ e c => if e = c then 1 else 0) (fun s v j => s * u v j) u 0 (fun v _ e he => by
      have : ∑ c ∈ range (if v = 3 then 2 else 1), (if e = c then 1 else 0) * u v c = 1 * u v e := by
        rw [sum_eq_single e]
        · simp
        · intro c _ hc; simp [Ne.symm hc]
        · intro h; exact absurd (mem_range.2 he) h
      rw [this]
      exact (hasDerivAt_id (0 : ℝ)).mul_const (u v e)) 0⟩

end Kalibr.Marg
