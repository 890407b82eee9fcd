import Verif.Sparse.Model

/-!
# Specification of the sparse block matrix

`WF`: what the constructors and operations establish.  `Denotes A M`: the dense matrix `M` has the size
of `A`, agrees with every stored block at the place of that block and is zero where no block is stored.
-/

namespace Kalibr.Sparse

variable {K : Type}

/-- A layout is a non-decreasing list of cumulative sizes. -/
def Mono (bi : List Nat) : Prop := bi.Pairwise (· ≤ ·)

/-- A well-formed sparse block matrix: there is a map for each block column, its keys are block rows,
in increasing order, and blocks have the size the layout says. -/
structure WF (A : SBM K) : Prop where
  rows : Mono A.rbi
  cols : Mono A.cbi
  length : A.bcols.length = A.cbi.length
  sorted : ∀ (c : Nat) (m : List (Nat × Mat K)), A.bcols[c]? = some m → m.Pairwise fun p q => p.1 < q.1
  fits : ∀ (c : Nat) (m : List (Nat × Mat K)), A.bcols[c]? = some m → ∀ p ∈ m,
    p.1 < A.rbi.length ∧ p.2.rows = size A.rbi p.1 ∧ p.2.cols = size A.cbi c

/-- The value at place `(i, j)` of block `(r, c)`: zero if the block is not stored. -/
def val [Zero K] (A : SBM K) (r c i j : Nat) : K :=
  match A.blk r c with
  | none => 0
  | some J => J.get i j

/-- `M` is the dense matrix that `A` stands for. -/
structure Denotes [Zero K] (A : SBM K) (M : Mat K) : Prop where
  rows : M.rows = total A.rbi
  cols : M.cols = total A.cbi
  entry : ∀ r c i j, r < A.rbi.length → c < A.cbi.length → i < size A.rbi r → j < size A.cbi c →
    M.get (base A.rbi r + i) (base A.cbi c + j) = val A r c i j

end Kalibr.Sparse
