import Verif.CCM.Model
import Mathlib.Data.Real.Sqrt

/-!
# Model of the linear system solvers of the optimizer

Sources in `/repo/aslam_optimizer/aslam_backend/`: `src/LinearSystemSolver.cpp` (cited `LSS`),
`src/SparseCholeskyLinearSystemSolver.cpp` (`SC`), `src/SparseQrLinearSystemSolver.cpp` (`SQ`),
`src/DenseQrLinearSystemSolver.cpp` (`DQ`), `include/aslam_backend/backend/implementation/Cholmod.hpp` (`CH`).
The block Cholesky solver is in `Verif/Normal`.

Simplifications: exact real arithmetic. The libraries (CHOLMOD, SuiteSparseQR, Eigen's QR) are parameters, see `Cholmod` and `Qr`.
The values of a freshly resized vector are not specified in C++; they are arguments of the model.
Exceptions end a history.
-/

namespace Kalibr.Solvers

open Jacobian CCM

variable {D : Type}

/-- What a symbolic analysis depends on: size, column pointers and row indices (`CH` 157-196: the values are not looked at). -/
def pattern (m : CCM ℝ) : Nat × Nat × List Nat × List Nat := (m.rows, m.cols, m.s.cp, m.s.ci)

/-- CHOLMOD, as used in `CH` 164-213, 270-314, 386-398: whether the analysis works, and numerical factorisation of `A Aᵀ` with solution,
which may fail. -/
structure Cholmod where
  analyzes : CCM ℝ → Bool
  solve : CCM ℝ → (Nat → ℝ) → Option (Nat → ℝ)

/-- SuiteSparseQR, as used in `CH` 198-222, 316-384, 400-440: symbolic analysis; factorisation with tolerance and solution in the sense of
least squares, which may fail. -/
structure Qr where
  analyzes : CCM ℝ → Bool
  solve : ℝ → Mat ℝ → (Nat → ℝ) → Option (Nat → ℝ)

/-! ## Sparse Cholesky -/

/-- The members of `SparseCholeskyLinearSystemSolver` and of its base: `_J_transpose` and the column pointers in `_jacobianBuilder`, `_e`, `_rhs`,
`_useDiagonalConditioner`, `_diagonalConditioner` and `_factor` (the structure for which it was made). -/
structure Sparse where
  Jt : CCM ℝ
  ptrs : List ColPtr
  e : List ℝ
  rhs : Nat → ℝ
  useDiag : Bool
  cond : List ℝ
  factor : Option (Nat × Nat × List Nat × List Nat)

/-- `initMatrixStructure`, `LSS` 117-138 with `SC` 14-35 (`keep` is `useDiagonalConditioner`): the error terms are given by dimension and variables, `junk` and
`junkRhs` are the unspecified values of the resized vectors. `old` is the object before the call. -/
def Sparse.init (env : Env D ℝ) (cb : D → Nat) (old : CCM ℝ) (rows : Nat) (es : List (Nat × List D)) (keep : Bool) (junk : List ℝ) (junkRhs : Nat → ℝ) :
    Out Sparse := do
  let (Jt, ptrs) ← initMatrixStructure env cb old rows es
  let Jt ← if keep then (Jt.pushConstantDiagonal 1).bind CCM.popDiagonal else .ok Jt
  return ⟨Jt, ptrs, junk, junkRhs, keep, List.replicate rows 0, none⟩

/-- `evaluateErrors`, `LSS` 12-24: `_e` is written. -/
def Sparse.evaluate (s : Sparse) (e : List ℝ) : Sparse := { s with e := e }

/-- `buildSystem`, `SC` 38-45 and `SQ` 54-62: the Jacobians are written in the order `order` of the threads, then `_rhs` is computed. -/
def Sparse.build (s : Sparse) (order : List Nat) (js : List (Container D ℝ)) : Out Sparse := do
  let Jt ← writeAll s.Jt (order.filterMap fun i => (js.zip s.ptrs)[i]?)
  let rhs ← Jt.rightMultiply s.e
  return { s with Jt := Jt, rhs := rhs }

/-- `setConditioner`, `LSS` 104-108. -/
def Sparse.setConditioner (s : Sparse) (d : List ℝ) : Out Sparse :=
  if d.length = s.Jt.rows then .ok { s with cond := d } else .raise

/-- `setConstantConditioner`, `LSS` 110-113. -/
def Sparse.setConstant (s : Sparse) (x : ℝ) : Sparse := { s with cond := List.replicate s.Jt.rows x }

/-- `if (!_factor) _factor = analyze(…)`, `SC` 56-61. -/
def ensureFactor (ok : Bool) (p : Nat × Nat × List Nat × List Nat) : Option (Nat × Nat × List Nat × List Nat) → Out (Nat × Nat × List Nat × List Nat)
  | some f => .ok f
  | none => if ok then .ok p else .raise

/-- `solveSystem`, `SC` 47-90 with `CH` 386-398. A factor made for another structure is undefined behaviour. -/
def Sparse.solveCholesky (lib : Cholmod) (s : Sparse) : Out (Sparse × Option (Nat → ℝ)) := do
  let A ← if s.useDiag then s.Jt.pushDiagonal s.cond else .ok s.Jt
  let f ← ensureFactor (lib.analyzes A) (pattern A) s.factor
  let x ← if f = pattern A then .ok (lib.solve A s.rhs) else .ub
  let Jt ← if s.useDiag then A.popDiagonal else .ok A
  return ({ s with Jt := Jt, factor := some f }, x)

/-! ## Sparse QR -/

/-- The options, `SparseQRLinearSolverOptions.h`. -/
structure QrOptions where
  colNorm : Bool
  qrTol : ℝ
  normTol : ℝ

/-- `initMatrixStructureImplementation`, `SQ` 30-52: the wish for a diagonal conditioner is not regarded. -/
def Sparse.initQr (env : Env D ℝ) (cb : D → Nat) (old : CCM ℝ) (rows : Nat) (es : List (Nat × List D)) (_keep : Bool) (junk : List ℝ) (junkRhs : Nat → ℝ) :
    Out Sparse :=
  Sparse.init env cb old rows es false junk junkRhs

/-- `colNorm`, `CH` 489-501; entries that are not stored are zero. -/
noncomputable def colNorm (A : Mat ℝ) (i : Nat) : ℝ := √(∑ k ∈ Finset.range A.rows, A.get k i * A.get k i)

/-- `CH` 412-418: the scaling of a column. -/
noncomputable def scaling (normTol : ℝ) (A : Mat ℝ) (i : Nat) : ℝ := if colNorm A i < normTol then 0 else 1 / colNorm A i

/-- `CH` 419-420: the columns scaled. -/
def scaleCols (A : Mat ℝ) (s : Nat → ℝ) : Mat ℝ := ⟨A.rows, A.cols, fun k i => A.get k i * s i⟩

/-- `Cholmod::solve` with QR, `CH` 400-440. Without a result the loop that undoes the scaling writes through a null pointer. -/
noncomputable def qrSolve (lib : Qr) (o : QrOptions) (A : Mat ℝ) (b : Nat → ℝ) : Out (Option (Nat → ℝ)) :=
  if o.colNorm then
    match lib.solve o.qrTol (scaleCols A (scaling o.normTol A)) b with
    | some y => .ok (some fun i => scaling o.normTol A i * y i)
    | none => .ub
  else .ok (lib.solve o.qrTol A b)

/-- `solveSystem`, `SQ` 64-110: `_useDiagonalConditioner` is false, and the right hand side is `_e` as it is now. -/
noncomputable def Sparse.solveQr (lib : Qr) (o : QrOptions) (s : Sparse) : Out (Sparse × Option (Nat → ℝ)) := do
  let f ← ensureFactor (lib.analyzes s.Jt) (pattern s.Jt) s.factor
  if f ≠ pattern s.Jt then .ub else do
    let A ← s.Jt.toDense
    let x ← qrSolve lib o A.transpose fun k => s.e.getD k 0
    return ({ s with factor := some f }, x)

/-! ## Dense QR -/

/-- The members of `DenseQrLinearSystemSolver` and of its base. `_useDiagonalConditioner` has no initial value. -/
structure Dense where
  J : Mat ℝ
  e : Nat → ℝ
  useDiag : Option Bool
  cond : Nat → ℝ

/-- `initMatrixStructure`, `LSS` 117-138 with `DQ` 27-31: `_useDiagonalConditioner` is not assigned. -/
def Dense.init (old : Dense) (rows cols : Nat) (_keep : Bool) (junk : Nat → Nat → ℝ) (junkE : Nat → ℝ) : Dense :=
  ⟨⟨rows, cols, junk⟩, junkE, old.useDiag, fun _ => 0⟩

/-- The constructor: `LSS` 9 leaves the flag without a value. -/
def Dense.new : Dense := ⟨⟨0, 0, fun _ _ => 0⟩, fun _ => 0, none, fun _ => 0⟩

/-- `DQ` 45-49: the diagonal below the Jacobian. -/
def vcat (A : Mat ℝ) (c : Nat → ℝ) : Mat ℝ :=
  ⟨A.rows + A.cols, A.cols, fun k i => if k < A.rows then A.get k i else if k - A.rows = i then c i else 0⟩

/-- `DQ` 50-51: zeros below the error. -/
def padded (n : Nat) (e : Nat → ℝ) : Nat → ℝ := fun k => if k < n then e k else 0

/-- `solveSystem`, `DQ` 41-58: the flag is read; if it never got a value that is undefined behaviour. -/
def Dense.solve (qr : Mat ℝ → (Nat → ℝ) → (Nat → ℝ)) (s : Dense) : Out (Dense × (Nat → ℝ)) :=
  match s.useDiag with
  | none => .ub
  | some false => .ok (s, qr s.J s.e)
  | some true => .ok (s, qr (vcat s.J s.cond) (padded s.J.rows s.e))

end Kalibr.Solvers
