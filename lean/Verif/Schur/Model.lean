import Mathlib.LinearAlgebra.Matrix.NonsingularInverse

/-!
# The Schur complement of the optimizer

Models `/repo/aslam_optimizer/aslam_backend/src/sparse_matrix_functions.cpp`.  The blocks of a column are looked at in the
order of their rows.  A block has the size that the layout `d` says, which the block matrices of `Sparse` guarantee, and a
vector is given by its segments, so that offsets do not occur.  Arithmetic is exact; the inverse of a singular block is
arbitrary in the program and zero here, and no theorem depends on it.
-/

namespace Kalibr.Schur

open Matrix

variable {K : Type} [Field K] {d : ℕ → ℕ}

/-- A `SparseBlockMatrix`: the blocks that are stored. -/
abbrev Blocks (K : Type) (d : ℕ → ℕ) := (r c : ℕ) → Option (Matrix (Fin (d r)) (Fin (d c)) K)

/-- A vector by its segments. -/
abbrev Vec (K : Type) (d : ℕ → ℕ) := (r : ℕ) → Fin (d r) → K

/-- The block, zero if it is not stored. -/
def val (B : Blocks K d) (r c : ℕ) : Matrix (Fin (d r)) (Fin (d c)) K := (B r c).getD 0

/-- `*block(r, c, true)` and an assignment to it. -/
def put (B : Blocks K d) (r c : ℕ) (M : Matrix (Fin (d r)) (Fin (d c)) K) : Blocks K d :=
  Function.update B r (Function.update (B r) c (some M))

/-- `sliceInto(0, s, 0, s, A)` (sparse_block_matrix.hpp:522-537): the blocks of `A` are set to zero, not removed, and those
of `H` are written over them. -/
def sliceInto (s : ℕ) (H A : Blocks K d) : Blocks K d := fun r c =>
  if r < s ∧ c < s ∧ (H r c).isSome then H r c else (A r c).map fun _ => 0

/-- `invVi[i]` (sparse_matrix_functions.cpp:28-36). -/
noncomputable def invV (s : ℕ) (lm : Bool) (lambda : K) (H : Blocks K d) (i : ℕ) :
    Matrix (Fin (d (s + i))) (Fin (d (s + i))) K :=
  if lm then (val H (s + i) (s + i) + lambda • (1 : Matrix (Fin (d (s + i))) (Fin (d (s + i))) K))⁻¹
  else (val H (s + i) (s + i))⁻¹

/-- The loop over `k` (sparse_matrix_functions.cpp:48-51): the rows from `j` to before `s` that are stored in column `t`. -/
def inner (s : ℕ) (H : Blocks K d) (t j : ℕ) (Y : Matrix (Fin (d j)) (Fin (d t)) K) (A : Blocks K d) : Blocks K d :=
  ((List.range s).filter fun k => decide (j ≤ k) && (H k t).isSome).foldl
    (fun A k => put A j k (val A j k - Y * (val H k t)ᵀ)) A

/-- The loop over `j` (sparse_matrix_functions.cpp:43-52). -/
noncomputable def outer (s : ℕ) (H : Blocks K d) (rhs : Vec K d) (t : ℕ) (I : Matrix (Fin (d t)) (Fin (d t)) K)
    (x : Blocks K d × Vec K d) : Blocks K d × Vec K d :=
  ((List.range s).filter fun j => (H j t).isSome).foldl
    (fun x j =>
      let Y := val H j t * I
      (inner s H t j Y x.1, Function.update x.2 j (x.2 j - Y *ᵥ rhs t))) x

/-- `A.block(i, i, true)->diagonal() += lambda` (sparse_matrix_functions.cpp:54-59). -/
def augment (s : ℕ) (lambda : K) (A : Blocks K d) : Blocks K d :=
  (List.range s).foldl (fun A i => put A i i (val A i i + lambda • (1 : Matrix (Fin (d i)) (Fin (d i)) K))) A

/-- `applySchurComplement` (sparse_matrix_functions.cpp:8-60) for `m` entries of `invVi`, given what is in `A` before: `A`
and `b`. -/
noncomputable def applySchur (s m : ℕ) (lm : Bool) (lambda : K) (H : Blocks K d) (rhs : Vec K d) (A : Blocks K d) :
    Blocks K d × Vec K d :=
  let x := (List.range m).foldl (fun x i => outer s H rhs (s + i) (invV s lm lambda H i) x) (sliceInto s H A, rhs)
  (if lm then augment s lambda x.1 else x.1, x.2)

/-- `buildDsi` (sparse_matrix_functions.cpp:64-83). -/
def buildDsi (s i : ℕ) (H : Blocks K d) (rhs : Vec K d) (I : Matrix (Fin (d (s + i))) (Fin (d (s + i))) K) (dx : Vec K d) :
    Fin (d (s + i)) → K :=
  I *ᵥ ((List.range s).filter fun j => (H j (s + i)).isSome).foldl
    (fun o j => o - (val H j (s + i))ᵀ *ᵥ dx j) (rhs (s + i))

end Kalibr.Schur
