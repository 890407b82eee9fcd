import Verif.Common
import Mathlib.Data.Nat.Notation

/-!
# The buffers the sparse linear solvers reuse

Models, of `aslam_optimizer/aslam_sparse_block_matrix/include/aslam_sparse_block_matrix`,
`linear_solver_cholmod.h` (`solve`, `fillCholmodExt`, `computeSymbolicDecomposition`),
`linear_solver_csparse.h` (`solve`, `fillCSparse`, `computeSymbolicDecomposition`) and
`linear_solver_spqr.h` (`fillCholmodExt`), and `src/matrix_structure.cpp`.  The export of a block
matrix to compressed columns is modelled in `Sparse/ExportModel.lean`; here a matrix is what the
export writes.
-/

namespace Kalibr.Reuse

/-- A matrix as the export writes it: for every column the rows of its entries, and the values of all
entries in the same order; `nonZeros` is `A.nonZeros()`, or twice that (linear_solver_spqr.h:181).
The entries are the upper triangle only, `nonZeros` counts both. -/
structure Mtx (K : Type) where
  rows : ℕ
  pat : List (List ℕ)
  vals : List K
  nonZeros : ℕ

/-- `A.cols()`. -/
def Mtx.cols {K : Type} (A : Mtx K) : ℕ := A.pat.length

/-- The column pointers the export writes: `0` and the sums of the lengths. -/
def pointers : ℕ → List (List ℕ) → List ℕ
  | k, [] => [k]
  | k, c :: cs => k :: pointers (k + c.length) cs

/-- `CholmodExt`, `CSparseExt` (sparse_helper.h:86-115, linear_solver_csparse.h:34-54).  `p` is
`none` while the array of the column pointers is not initialized; `i` and `x` hold the part of their
arrays that was written. -/
structure Buf (K : Type) where
  colsAlloc : ℕ
  nzmax : ℕ
  rows : ℕ
  cols : ℕ
  p : Option (List ℕ)
  i : List ℕ
  x : List K

/-- The constructor. -/
def Buf.fresh {K : Type} : Buf K := ⟨0, 0, 0, 0, none, [], []⟩

/-- The array of the column pointers (linear_solver_cholmod.h:290-295, linear_solver_csparse.h:292-296,
linear_solver_spqr.h:174-179). -/
def growCols {K : Type} (b : Buf K) (n : ℕ) : Buf K :=
  if b.colsAlloc < n then
    { b with colsAlloc := if b.colsAlloc = 0 then n else 2 * n, p := none }
  else b

/-- The arrays of the rows and the values (linear_solver_cholmod.h:297-305,
linear_solver_csparse.h:299-306, linear_solver_spqr.h:181-189). -/
def growNz {K : Type} (b : Buf K) (nz : ℕ) : Buf K :=
  if b.nzmax < nz then
    { b with nzmax := if b.nzmax = 0 then nz else 2 * nz, i := [], x := [] }
  else b

/-- Write a list to the front of an array. -/
def overwrite {α : Type} (l old : List α) : List α := l ++ old.drop l.length

/-- `fillCholmodExt`, `fillCSparse` (linear_solver_cholmod.h:285-314, linear_solver_csparse.h:287-318,
linear_solver_spqr.h:169-202).  Writing behind the end of an array is undefined, and so is writing the column
pointers while there is no array for them. -/
def fill {K : Type} (b : Buf K) (A : Mtx K) (onlyValues : Bool) : Out (Buf K) :=
  let b := growCols b A.cols
  let b := if onlyValues then b else growNz b A.nonZeros
  let b := { b with rows := A.rows, cols := A.cols }
  if b.nzmax < A.vals.length then .ub
  else if onlyValues then .ok { b with x := overwrite A.vals b.x }
  else if b.colsAlloc = 0 then .ub
  else .ok { b with p := some (pointers 0 A.pat), i := overwrite A.pat.flatten b.i,
                    x := overwrite A.vals b.x }

/-- What the library reads from the arrays: the entries of column `c` are those from `p[c]` to
`p[c+1]`. -/
def readCols {K : Type} (i : List ℕ) (x : List K) : ℕ → List ℕ → Out (List (List (ℕ × K)))
  | 0, _ => .ok []
  | k + 1, a :: b :: r =>
      if b ≤ i.length ∧ b ≤ x.length then
        (readCols i x k (b :: r)).bind fun cs =>
          .ok ((((i.zip x).take b).drop a) :: cs)
      else .ub
  | _ + 1, _ => .ub

/-- The matrix handed to the factorization, column by column. -/
def Buf.read {K : Type} (b : Buf K) : Out (List (List (ℕ × K))) :=
  match b.p with
  | none => .ub
  | some p => readCols b.i b.x b.cols p

/-- A solver: its buffers, and the pattern its symbolic factorization was made for, if it has one. -/
structure Solver (K : Type) where
  buf : Buf K
  symbolic : Option (List (List ℕ))

/-- The constructor (linear_solver_cholmod.h:36-50, linear_solver_csparse.h:63-72). -/
def Solver.fresh {K : Type} : Solver K := ⟨Buf.fresh, none⟩

/-- `init` (linear_solver_cholmod.h:59-68, linear_solver_csparse.h:85-92). -/
def Solver.reset {K : Type} (s : Solver K) : Solver K := { s with symbolic := none }

/-- `solve`, `solveBlocks` and `solvePattern` up to the numeric factorization
(linear_solver_cholmod.h:70-100, linear_solver_csparse.h:94-119): the matrix handed to it and the
pattern it is told.  `posdef` says whether the factorization succeeds; `frees`: the solver gives the
symbolic factorization up if not (linear_solver_cholmod.h:91-95). -/
def Solver.solve {K : Type} (s : Solver K) (A : Mtx K) (posdef frees : Bool) :
    Out (Solver K × List (List (ℕ × K)) × List (List ℕ)) :=
  (fill s.buf A s.symbolic.isSome).bind fun b =>
    let sym := s.symbolic.getD A.pat
    b.read.bind fun m =>
      .ok (⟨b, if posdef = false ∧ frees = true then none else some sym⟩, m, sym)

/-- A call. -/
inductive Op (K : Type) where
  | init
  | solve (A : Mtx K) (posdef frees : Bool)

/-- A history of calls: what was handed to the factorization by each of the solutions, and the
pattern of the symbolic factorization used. -/
def run {K : Type} : Solver K → List (Op K) → Out (List (List (List (ℕ × K)) × List (List ℕ)))
  | _, [] => .ok []
  | s, .init :: r => run s.reset r
  | s, .solve A posdef frees :: r =>
      (s.solve A posdef frees).bind fun q =>
        (run q.1 r).bind fun l => .ok (q.2 :: l)

/-! ## The ordering -/

/-- `blow up the permutation to the scalar matrix` (linear_solver_cholmod.h:260-268,
linear_solver_csparse.h:250-258): `size` gives the number of columns of a block and `base` its first
column. -/
def blowUp (base size : ℕ → ℕ) (P : List ℕ) : List ℕ :=
  P.flatMap fun p => (List.range (size p)).map (base p + ·)

/-- `colBaseOfBlock`: the sum of the sizes before. -/
def baseOf (size : ℕ → ℕ) : ℕ → ℕ
  | 0 => 0
  | k + 1 => baseOf size k + size k

/-- The size of `_scalarPermutation` and `_blockPermutation` for `n` entries
(linear_solver_cholmod.h:230-233, 256-259, linear_solver_csparse.h:246-249). -/
def permSize (old n : ℕ) : ℕ :=
  let s := if old = 0 then n else old
  if s < n then 2 * n else s

/-- `_csWorkspaceSize` (linear_solver_csparse.h:102-108); `none` is the initial `-1`. -/
def workSize (old : Option ℕ) (n : ℕ) : ℕ :=
  match old with
  | none => 2 * n
  | some w => if w < n then 2 * n else w

/-! ## The block structure -/

/-- `MatrixStructure` (matrix_structure.cpp:35-38): the sizes of the arrays, and the number of arrays
nobody points to any more. -/
structure MS where
  n : ℕ
  maxN : ℕ
  maxNz : ℕ
  /-- length of `Ap` -/
  ap : ℕ
  /-- length of `Aii` -/
  aii : ℕ
  /-- whether the pointers are set -/
  live : Bool
  lost : ℕ

def MS.fresh : MS := ⟨0, 0, 0, 0, 0, false, 0⟩

/-- `alloc` (matrix_structure.cpp:45-66). -/
def MS.alloc (s : MS) (n nz : ℕ) : MS :=
  if s.n = 0 then
    { n := n, maxN := n, maxNz := nz, ap := n + 1, aii := nz, live := true,
      lost := s.lost + (if s.live then 2 else 0) }
  else
    let s := { s with n := n }
    let s := if s.maxNz < nz then { s with maxNz := 2 * nz, aii := 2 * nz } else s
    if s.maxN < s.n then { s with maxN := 2 * s.n, ap := 2 * s.n + 1 } else s

/-- `free` (matrix_structure.cpp:68-76). -/
def MS.free (s : MS) : MS := ⟨0, 0, 0, 0, 0, false, s.lost⟩

/-- Calls. -/
inductive MOp where
  | alloc (n nz : ℕ)
  | free

def MS.apply (s : MS) : MOp → MS
  | .alloc n nz => s.alloc n nz
  | .free => s.free

/-- The entries `write` lists (matrix_structure.cpp:88-97): those of the columns and their mirror
images. -/
def mirrored : ℕ → List (List ℕ) → List (ℕ × ℕ)
  | _, [] => []
  | c, rs :: cs =>
      (rs.flatMap fun r => if r ≠ c then [(r, c), (c, r)] else [(r, c)]) ++ mirrored (c + 1) cs

end Kalibr.Reuse
