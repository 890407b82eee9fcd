import Verif.Common
import Verif.Tactics
import Mathlib.Data.Real.Basic
import Mathlib.Algebra.BigOperators.Fin

/-!
# A matrix as a design variable

A model of `MatrixTransformation` (aslam_optimizer/aslam_backend_expressions/src/MatrixTransformation.cpp), the 3 by 3 matrix of
which a pattern says which entries are estimated.  Numbers are reals.  `minimalDifference` is left out.
-/

namespace Kalibr.MatDv

abbrev M3 := Fin 3 → Fin 3 → ℝ

/-- The row of the entry number `i`, `i%3` (MatrixTransformation.cpp:19 and others). -/
def row (i : ℕ) : Fin 3 := ⟨i % 3, by omega⟩
/-- Its column, `floor(i/3)`, for `i < 9`. -/
def col (i : ℕ) : Fin 3 := ⟨i / 3 % 3, by omega⟩

/-- The class: the matrix, the one before the last change, the pattern, the number of unknowns. -/
structure Dv where
  A : M3
  Aa : M3
  pattern : M3
  dim : ℕ

open Classical in
/-- The loop that counts (18-22). -/
noncomputable def count (U : M3) : List ℕ → ℕ → ℕ
  | [], n => n
  | i :: is, n => count U is (if U (row i) (col i) = 1 then n + 1 else n)

/-- The constructor with a pattern (15-23). -/
noncomputable def Dv.new (A U : M3) : Dv := ⟨A, A, U, count U (List.range 9) 0⟩

/-- The constructor without one (9-13). -/
def Dv.newAll (A : M3) : Dv := ⟨A, A, fun _ _ => 1, 9⟩

/-- `_A(i%3, i/3) = v`. -/
def put (A : M3) (i : ℕ) (v : ℝ) : M3 := fun r c => if r = row i ∧ c = col i then v else A r c

open Classical in
/-- The loop of the update (41-44).  `dp` is all the memory that can be read from the pointer on. -/
noncomputable def updateLoop (U : M3) (dp : List ℝ) : List ℕ → ℕ → M3 → Out M3
  | [], _, A => .ok A
  | i :: is, j, A =>
    match dp[j]? with
    | none => .ub
    | some d => updateLoop U dp is (if U (row i) (col i) = 1 then j + 1 else j)
        (put A i (A (row i) (col i) + U (row i) (col i) * d))

/-- `updateImplementation` (34-45), without the check of debug builds. -/
noncomputable def Dv.update (v : Dv) (dp : List ℝ) : Out Dv :=
  (updateLoop v.pattern dp (List.range 9) 0 v.A).bind fun A => .ok { v with A := A, Aa := v.A }

/-- `revertUpdateImplementation` (28-31). -/
def Dv.revert (v : Dv) : Dv := { v with A := v.Aa }

/-- `setParametersImplementation` (96-100). -/
def Dv.setParameters (v : Dv) (A : M3) : Dv := { v with A := A, Aa := v.A }

/-- `minimalDimensionsImplementation` (47-50). -/
def Dv.minimalDimensions (v : Dv) : ℕ := v.dim

open Classical in
/-- The columns of the Jacobian (71-78); `G i` is the column `i` of `applyChainRule`. -/
noncomputable def jacobian {α : Type} (U : M3) (G : ℕ → α) : List ℕ → List α
  | [] => []
  | i :: is => if U (row i) (col i) = 1 then G i :: jacobian U G is else jacobian U G is

/-! ## Specification -/

/-- A pattern of zeros and ones. -/
def IsPattern (U : M3) : Prop := ∀ r c, U r c = 0 ∨ U r c = 1

open Classical in
/-- The number of estimated entries before the entry in row `r` and column `c`, going down the columns. -/
noncomputable def before (U : M3) (r c : Fin 3) : ℕ :=
  (Finset.univ.filter fun e : Fin 3 × Fin 3 => (e.2 < c ∨ (e.2 = c ∧ e.1 < r)) ∧ U e.1 e.2 = 1).card

open Classical in
/-- The number of estimated entries. -/
noncomputable def unknowns (U : M3) : ℕ := (Finset.univ.filter fun e : Fin 3 × Fin 3 => U e.1 e.2 = 1).card

end Kalibr.MatDv
