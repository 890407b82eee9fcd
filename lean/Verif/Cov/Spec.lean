import Verif.Cov.Model
import Mathlib.Algebra.BigOperators.Group.Finset.Basic

/-!
# Specification of the marginal covariances

A factor in compressed columns stands for the matrix `dense`.  `Lower`: the columns of a Cholesky factor, as
CHOLMOD delivers it.  `Factors`: the product of the factor with its transpose is the matrix, up to the permutation.
`IsInverse`: one matrix is the inverse of the other.
-/

namespace Kalibr.Cov

open Sparse Finset

variable {K : Type} [Field K]

/-- The places of the arrays that hold column `r`. -/
def inCol (Lp : List Nat) (r : Nat) : List Nat := List.range' (Lp.getD r 0) (Lp.getD (r + 1) 0 - Lp.getD r 0)

/-- The entry `(i, r)` of the matrix with compressed columns `Lp`, `Li`, `Lx`. -/
def dense (Lp Li : List Nat) (Lx : List K) (i r : Nat) : K :=
  ((inCol Lp r).map fun j => if Li.getD j 0 = i then Lx.getD j 0 else 0).sum

/-- A lower triangular `n × n` matrix in compressed columns: no column is empty, the first entry of a column is on
the diagonal and is not zero, the others are below it. -/
structure Lower (n : Nat) (Lp Li : List Nat) (Lx : List K) : Prop where
  ptr : Lp.length = n + 1
  same : Li.length = Lx.length
  nonempty : ∀ r, r < n → Lp.getD r 0 < Lp.getD (r + 1) 0
  inside : ∀ r, r < n → Lp.getD (r + 1) 0 ≤ Li.length
  first : ∀ r, r < n → Li.getD (Lp.getD r 0) 0 = r
  nonzero : ∀ r, r < n → Lx.getD (Lp.getD r 0) 0 ≠ 0
  below : ∀ r j, r < n → Lp.getD r 0 < j → j < Lp.getD (r + 1) 0 → r < Li.getD j 0 ∧ Li.getD j 0 < n

/-- The place of row `i` in the factor. -/
def place (pinv : Option (List Nat)) (i : Nat) : Nat :=
  match pinv with
  | none => i
  | some p => p.getD i 0

/-- `pinv`, if given, permutes the `n` rows. -/
def Permutes (n : Nat) (pinv : Option (List Nat)) : Prop := ∀ p, pinv = some p → p.Perm (List.range n)

/-- The matrix `A` is the product of the factor and its transpose, row `i` of `A` being row `place pinv i` of the
product. -/
def Factors (n : Nat) (A : Nat → Nat → K) (Lp Li : List Nat) (Lx : List K) (pinv : Option (List Nat)) : Prop :=
  ∀ i j, i < n → j < n →
    A i j = ∑ k ∈ range n, dense Lp Li Lx (place pinv i) k * dense Lp Li Lx (place pinv j) k

/-- `Z` is the inverse of the `n × n` matrix `A`. -/
def IsInverse (n : Nat) (A Z : Nat → Nat → K) : Prop :=
  ∀ i j, i < n → j < n →
    (∑ k ∈ range n, A i k * Z k j = if i = j then 1 else 0) ∧
      ∑ k ∈ range n, Z i k * A k j = if i = j then 1 else 0

end Kalibr.Cov
