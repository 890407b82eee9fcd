import Verif.Tactics
import Mathlib.Algebra.BigOperators.Group.Finset.Basic
import Mathlib.Algebra.BigOperators.Ring.Finset
import Mathlib.Algebra.BigOperators.Intervals

/-!
# Dense matrices of run-time size

`Eigen::MatrixXd`: a number of rows, a number of columns, and the entries.  Entries outside the size
are never looked at by the modelled code.
-/

namespace Kalibr

/-- A dense matrix of run-time size. -/
structure Mat (K : Type) where
  rows : Nat
  cols : Nat
  get : Nat → Nat → K

namespace Mat

variable {K : Type}

/-- Same size and same entries. -/
def Same (a b : Mat K) : Prop :=
  a.rows = b.rows ∧ a.cols = b.cols ∧ ∀ i j, i < a.rows → j < a.cols → a.get i j = b.get i j

theorem Same.refl (a : Mat K) : Same a a := ⟨rfl, rfl, fun _ _ _ _ => rfl⟩

theorem Same.symm {a b : Mat K} (h : Same a b) : Same b a :=
  ⟨h.1.symm, h.2.1.symm, fun i j hi hj => (h.2.2 i j (h.1 ▸ hi) (h.2.1 ▸ hj)).symm⟩

theorem Same.trans {a b c : Mat K} (h : Same a b) (h' : Same b c) : Same a c :=
  ⟨h.1.trans h'.1, h.2.1.trans h'.2.1, fun i j hi hj =>
    (h.2.2 i j hi hj).trans (h'.2.2 i j (h.1 ▸ hi) (h.2.1 ▸ hj))⟩

/-- `MatrixXd::Zero(r, c)`. -/
def zero [Zero K] (r c : Nat) : Mat K := ⟨r, c, fun _ _ => 0⟩

/-- Sum (of matrices of equal size). -/
def add [Add K] (a b : Mat K) : Mat K := ⟨a.rows, a.cols, fun i j => a.get i j + b.get i j⟩

/-- Product (the columns of the first are the rows of the second). -/
def mul [NonUnitalNonAssocSemiring K] (a b : Mat K) : Mat K :=
  ⟨a.rows, b.cols, fun i j => ∑ k ∈ Finset.range a.cols, a.get i k * b.get k j⟩

/-- Transpose. -/
def transpose (a : Mat K) : Mat K := ⟨a.cols, a.rows, fun i j => a.get j i⟩

/-- Multiplication by a number. -/
def scale [Mul K] (a : Mat K) (s : K) : Mat K := ⟨a.rows, a.cols, fun i j => a.get i j * s⟩

/-- A matrix from rows, for concrete cases. -/
def ofRows [Zero K] (r c : Nat) (l : List (List K)) : Mat K :=
  ⟨r, c, fun i j => (l.getD i []).getD j 0⟩

/-- The entries row by row, for concrete cases. -/
def toRows (a : Mat K) : List (List K) :=
  (List.range a.rows).map fun i => (List.range a.cols).map fun j => a.get i j

end Mat

end Kalibr
