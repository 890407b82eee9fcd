import Verif.Marg.Model
import Mathlib.Algebra.Order.Field.Basic

/-!
# Specification of the marginalisation

The linearised problem: the error of a term after a displacement `δ` of the variables is its error plus its derivatives
times the displacement.
-/

namespace Kalibr.Marg

open Finset

variable {K : Type} [Field K]

/-- The derivative of row `i` of error term `e` by coordinate `j` of variable `v`: zero if the term has no block for the
variable. -/
def deriv (T : Terms K) (e v i j : Nat) : K :=
  match (T.jac e).find? fun q => q.1 = v with
  | none => 0
  | some q => q.2.get i j

/-- The linearised error. -/
def linError (T : Terms K) (dvs : List Nat) (e : Nat) (δ : Nat → Nat → K) (i : Nat) : K :=
  T.err e i + (dvs.map fun v => ∑ j ∈ range (T.dim v), deriv T e v i j * δ v j).sum

/-- The sum of the squares of the linearised errors. -/
def linCost (T : Terms K) (dvs ets : List Nat) (δ : Nat → Nat → K) : K :=
  (ets.map fun e => ∑ i ∈ range (T.edim e), linError T dvs e δ i * linError T dvs e δ i).sum

/-- The blocks of the Jacobians are those of listed variables, one for each, and have the right size. -/
def Sound (T : Terms K) (dvs ets : List Nat) : Prop :=
  ∀ e ∈ ets, ((T.jac e).map (·.1)).Nodup ∧
    ∀ q ∈ T.jac e, q.1 ∈ dvs ∧ q.2.rows = T.edim e ∧ q.2.cols = T.dim q.1

/-- The sum of the dimensions. -/
def dims (dim : Nat → Nat) (l : List Nat) : Nat := (l.map dim).sum

/-- `M` is the Jacobian matrix of the linearised problem, terms and variables in the order of the lists. -/
def IsJacobian (T : Terms K) (dvs ets : List Nat) (M : Mat K) : Prop :=
  M.rows = dims T.edim ets ∧ M.cols = dims T.dim dvs ∧
  ∀ a e b v i j, ets[a]? = some e → dvs[b]? = some v → i < T.edim e → j < T.dim v →
    M.get (dims T.edim (ets.take a) + i) (dims T.dim (dvs.take b) + j) = deriv T e v i j

/-- `Q` is orthogonal, and `M` is the product of `Q` and the upper triangle of `P`. -/
def IsQr (M Q P : Mat K) : Prop :=
  P.rows = M.rows ∧ P.cols = M.cols ∧
  (∀ i k, i < M.rows → k < M.rows → ∑ l ∈ range M.rows, Q.get l i * Q.get l k = if i = k then 1 else 0) ∧
  ∀ i j, i < M.rows → j < M.cols →
    M.get i j = ∑ l ∈ range M.rows, Q.get i l * if l ≤ j then P.get l j else 0

/-- `N` is an inverse of `M`, from the right. -/
def IsRightInverse (M N : Mat K) : Prop :=
  N.rows = M.cols ∧ N.cols = M.rows ∧
  ∀ i k, i < M.rows → k < M.rows → ∑ l ∈ range M.cols, M.get i l * N.get l k = if i = k then 1 else 0

/-- The removed variables are determined: a displacement of them alone that changes no linearised error is zero. -/
def Determined (T : Terms K) (dvs ets removed : List Nat) : Prop :=
  ∀ δ : Nat → Nat → K, (∀ v, v ∉ removed → ∀ j, δ v j = 0) →
    (∀ e ∈ ets, ∀ i, i < T.edim e → linError T dvs e δ i = T.err e i) →
    ∀ v ∈ removed, ∀ j, j < T.dim v → δ v j = 0

end Kalibr.Marg
