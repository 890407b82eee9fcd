import Verif.Sparse.Model
import Mathlib.Data.Real.Basic
import Mathlib.LinearAlgebra.Matrix.NonsingularInverse

/-!
# Model of the iterative solver for sparse block matrices

Sources, below `/repo/aslam_optimizer/aslam_sparse_block_matrix/include/aslam_sparse_block_matrix`:
`linear_solver_pcg.h` (cited as `.h`) and `implementation/linear_solver_pcg.hpp` (cited as `.hpp`).

`double` values are exact reals; a vector is a function used below its length.  Matrices live in a heap:
what the solver keeps of a matrix between calls are pointers to its blocks.
-/

namespace Kalibr.Pcg

open Kalibr.Sparse (SBM base total axpy)

/-- A pointer to the block in row `r` and column `c` of a matrix. -/
structure Ptr where
  obj : ℕ
  r : ℕ
  c : ℕ

/-- The matrices that exist. -/
abbrev Heap := ℕ → Option (SBM ℝ)

/-- `.h` 80-90: the members of `LinearSolverPCG` that live from one call to the next. -/
structure Solver where
  tolerance : ℝ
  residual : ℝ
  absoluteTolerance : Bool
  maxIter : ℤ
  indices : List (ℕ × ℕ)
  sparseMat : List Ptr

/-- `.h` 39-47: the constructor. -/
noncomputable def Solver.new : Solver := ⟨1 / 1000000, -1, true, -1, [], []⟩

/-- `.h` 53-59: `init`. -/
def Solver.init (s : Solver) : Solver := { s with residual := -1, indices := [], sparseMat := [] }

/-- `inverse()` of a square block; of a singular one it is some matrix. -/
noncomputable def inverse (a : Mat ℝ) : Mat ℝ :=
  ⟨a.rows, a.rows, fun i j =>
    if h : i < a.rows ∧ j < a.rows then
      (Matrix.of fun p q : Fin a.rows => a.get p q)⁻¹ ⟨i, h.1⟩ ⟨j, h.2⟩
    else 0⟩

/-- `.hpp` 71-82: the loop over one block column: the blocks before the diagonal one and the diagonal one. -/
def scan (i : ℕ) : List (ℕ × Mat ℝ) → List (ℕ × Mat ℝ) × Option (Mat ℝ)
  | [] => ([], none)
  | p :: m => if p.1 = i then ([], some p.2) else (p :: (scan i m).1, (scan i m).2)

/-- `.hpp` 67-85: the diagonal blocks. -/
def diagOf (A : SBM ℝ) : List (Mat ℝ) := A.bcols.zipIdx.filterMap fun x => (scan x.2 x.1).2

/-- `.hpp` 67-85: offsets of and pointers to the other blocks. -/
def offOf (a : ℕ) (A : SBM ℝ) : List ((ℕ × ℕ) × Ptr) :=
  A.bcols.zipIdx.flatMap fun x => (scan x.2 x.1).1.map fun p => ((base A.rbi p.1, base A.cbi x.2), ⟨a, p.1, x.2⟩)

/-- `.hpp` 19-30: `pcg_axy`, `y.segment(yoff, rows) = J * x.segment(xoff, cols)`. -/
def axy (J : Mat ℝ) (x : ℕ → ℝ) (xoff : ℕ) (y : ℕ → ℝ) (yoff : ℕ) : ℕ → ℝ := fun n =>
  if yoff ≤ n ∧ n < yoff + J.rows then ∑ k ∈ Finset.range J.cols, J.get (n - yoff) k * x (xoff + k) else y n

/-- `.hpp` 132-150: `multDiag`. -/
def multDiag (cbi : List ℕ) (L : List (Mat ℝ)) (src dest : ℕ → ℝ) : ℕ → ℝ :=
  L.zipIdx.foldl (fun y b => axy b.1 src (base cbi b.2) y (base cbi b.2)) dest

/-- `.hpp` 152-171: `mult`. -/
def mult (cbi : List ℕ) (diag : List (Mat ℝ)) (indices : List (ℕ × ℕ)) (sparse : List (Mat ℝ)) (src dest : ℕ → ℝ) : ℕ → ℝ :=
  (indices.zip sparse).foldl (fun y b =>
    axpy b.2.transpose src b.1.1 (axpy b.2 src b.1.2 y b.1.1) b.1.2) (multDiag cbi diag src dest)

/-- The scalar product of two vectors of length `n`. -/
def dot (n : ℕ) (u v : ℕ → ℝ) : ℝ := ∑ k ∈ Finset.range n, u k * v k

/-- `.hpp` 88-99: the variables of the iteration. -/
structure Vars where
  x : ℕ → ℝ
  r : ℕ → ℝ
  d : ℕ → ℝ
  q : ℕ → ℝ
  s : ℕ → ℝ
  dn : ℝ

/-- `.hpp` 115-124: one iteration. -/
noncomputable def iterate (n : ℕ) (mul pre : (ℕ → ℝ) → (ℕ → ℝ) → ℕ → ℝ) (v : Vars) : Vars :=
  let q := mul v.d v.q
  let a := v.dn / dot n v.d q
  let x := fun i => v.x i + a * v.d i
  let r := fun i => v.r i - a * q i
  let s := pre r v.s
  let dold := v.dn
  let dn := dot n r s
  let ba := dn / dold
  ⟨x, r, fun i => s i + ba * v.d i, q, s, dn⟩

/-- `.hpp` 110-125: the loop, `k` iterations before the limit. -/
noncomputable def run (n : ℕ) (mul pre : (ℕ → ℝ) → (ℕ → ℝ) → ℕ → ℝ) (d0 : ℝ) : ℕ → Vars → Vars
  | 0, v => v
  | k + 1, v => if v.dn ≤ d0 then v else run n mul pre d0 k (iterate n mul pre v)

/-- What a pointer points to. -/
def deref (H : Heap) (p : Ptr) : Out (Mat ℝ) :=
  match H p.obj with
  | none => .ub
  | some A => match A.blk p.r p.c with
    | none => .ub
    | some J => .ok J

/-- All pointers of a list. -/
def derefAll (H : Heap) : List Ptr → Out (List (Mat ℝ))
  | [] => .ok []
  | p :: l => do
    let J ← deref H p
    let L ← derefAll H l
    return J :: L

/-- `.hpp` 58-130: `solve` for the matrix `a` of the heap: the solution and the solver afterwards.
Simplification: a pointer that is not valid any more is reported even if no iteration takes place. -/
noncomputable def solve (H : Heap) (s : Solver) (a : ℕ) (b : ℕ → ℝ) : Out ((ℕ → ℝ) × Solver) :=
  match H a with
  | none => .ub
  | some A => do
    let diag := diagOf A
    let J := diag.map inverse
    let s := if s.indices.length = 0 then
        { s with indices := s.indices ++ (offOf a A).map (·.1), sparseMat := s.sparseMat ++ (offOf a A).map (·.2) }
      else s
    let sparse ← derefAll H s.sparseMat
    let n := total A.rbi
    let mul := mult A.cbi diag s.indices sparse
    let pre := multDiag A.cbi J
    let d := pre b fun _ => 0
    let dn := dot n b d
    let d0 := s.tolerance * dn
    let d0 := if s.absoluteTolerance = true ∧ s.residual > 0 ∧ s.residual > d0 then s.residual else d0
    let maxIter := if s.maxIter < 0 then n else s.maxIter.toNat
    let v := run n mul pre d0 maxIter ⟨fun _ => 0, b, d, fun _ => 0, fun _ => 0, dn⟩
    return (v.x, { s with residual := 1 / 2 * v.dn })

end Kalibr.Pcg
