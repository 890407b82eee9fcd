import Verif.Sparse.ExportModel
import Mathlib.Algebra.Field.Defs
import Mathlib.Data.List.Sort

/-!
# Model of the marginal covariances

Sources, in `aslam_optimizer`:
`aslam_sparse_block_matrix/src/marginal_covariance_cholesky.cpp` (cited as `mcc.cpp`) and its header (`mcc.h`),
`aslam_sparse_block_matrix/include/aslam_sparse_block_matrix/linear_solver_cholmod.h` (`cholmod.h`),
`aslam_backend/src/Optimizer.cpp`.

`double` is a field (exact arithmetic), `int` is 32 bits wide where products of indices are formed
(`computeIndex`); the other indices are natural numbers.  Reading past an array, a failed `assert` and the overflow
of `int` are `ub`.  The factorisation of CHOLMOD is a parameter (`Chol`).
-/

namespace Kalibr.Cov

open Sparse

variable {K : Type} [Field K]

/-- mcc.h 70-78: the factor in compressed columns, the reciprocals of its diagonal, the inverse permutation. -/
structure Factor (K : Type) where
  n : Nat
  Ap : List Nat
  Ai : List Nat
  Ax : List K
  perm : Option (List Nat)
  diag : List K

/-- mcc.cpp 55-57: the reciprocal of the first entry of column `r`, which must be on the diagonal. -/
def diagEntry (Lp Li : List Nat) (Lx : List K) (r : Nat) : Out K :=
  match Lp[r]? with
  | none => .ub
  | some sc =>
    match Li[sc]?, Lx[sc]? with
    | some i, some x => if r = i then .ok (1 / x) else .ub
    | _, _ => .ub

/-- A function applied to all elements of a list, in order. -/
def collect {α β : Type} (f : α → Out β) : List α → Out (List β)
  | [] => .ok []
  | a :: l => do
    let b ← f a
    let bs ← collect f l
    return b :: bs

/-- mcc.cpp 44-59, `setCholeskyFactor`. -/
def setCholeskyFactor (n : Nat) (Lp Li : List Nat) (Lx : List K) (permInv : Option (List Nat)) :
    Out (Factor K) := do
  let d ← collect (diagEntry Lp Li Lx) (List.range n)
  return ⟨n, Lp, Li, Lx, permInv, d⟩

/-- The largest `int`. -/
def intMax : Nat := 2147483647

/-- mcc.h 80-81, `computeIndex`: `r*_n + c` in `int`. -/
def computeIndex (n r c : Nat) : Out Nat := if r * n + c ≤ intMax then .ok (r * n + c) else .ub

/-- mcc.h 38: `std::unordered_map<int, double>`. -/
abbrev LookupMap (K : Type) := Nat → Option K

/-- mcc.cpp 131-139: the loop over the entries of a column below the diagonal; `entry` is the recursive call. -/
def sumColumn (F : Factor K) (entry : Nat → Nat → LookupMap K → Out (K × LookupMap K)) (c : Nat) :
    List Nat → K → LookupMap K → Out (K × LookupMap K)
  | [], s, m => .ok (s, m)
  | j :: js, s, m =>
    match F.Ai[j]?, F.Ax[j]? with
    | some rr, some x => do
      let p ← (if rr < c then entry rr c m else entry c rr m)
      sumColumn F entry c js (s + p.1 * x) p.2
    | _, _ => .ub

/-- mcc.cpp 121-150, `computeEntry`: the entry and the table after the call.  `fuel` bounds the depth of the
recursion; exhausting it stands for a recursion that does not end. -/
def computeEntry (F : Factor K) : Nat → Nat → Nat → LookupMap K → Out (K × LookupMap K)
  | 0, _, _, _ => .ub
  | fuel + 1, r, c, m =>
    if c < r then .ub
    else do
      let idx ← computeIndex F.n r c
      match m idx with
      | some v => return (v, m)
      | none =>
        match F.Ap[r]?, F.Ap[r + 1]?, F.diag[r]? with
        | some sc, some ec, some d => do
          let p ← sumColumn F (computeEntry F fuel) c (List.range' (sc + 1) (ec - (sc + 1))) 0 m
          let result := if r = c then d * (d - p.1) else -p.1 * d
          return (result, fun i => if i = idx then some result else p.2 i)
        | _, _, _ => .ub

/-- `_perm ? _perm[i] : i` (mcc.cpp 162). -/
def applyPerm (F : Factor K) (i : Nat) : Out Nat :=
  match F.perm with
  | none => .ok i
  | some p =>
    match p[i]? with
    | none => .ub
    | some k => .ok k

/-- mcc.cpp 162-166: the permuted indices, swapped if needed. -/
def elemOf (F : Factor K) (q : Nat × Nat) : Out (Nat × Nat) := do
  let r ← applyPerm F q.1
  let c ← applyPerm F q.2
  return if c < r then (c, r) else (r, c)

/-- mcc.cpp 29-32: the order of `MatrixElem`, "not greater". -/
def elemLe (a b : Nat × Nat) : Prop := b.2 < a.2 ∨ (a.2 = b.2 ∧ b.1 ≤ a.1)

instance : DecidableRel elemLe := fun a b => inferInstanceAs (Decidable (b.2 < a.2 ∨ (a.2 = b.2 ∧ b.1 ≤ a.1)))

/-- mcc.cpp 174-178 and 241-245: all elements are computed.  The depth of the recursion of each call is bounded by the number
of places. -/
def computeAll (F : Factor K) : List (Nat × Nat) → LookupMap K → Out (LookupMap K)
  | [], m => .ok m
  | q :: qs, m => do
    let p ← computeEntry F (F.n * F.n + 1) q.1 q.2 m
    computeAll F qs p.2

/-- mcc.cpp 154-178 and 211-245: the elements for the places of the result are collected, sorted and computed. -/
def fillMap (F : Factor K) (places : List (Nat × Nat)) : Out (LookupMap K) := do
  let es ← collect (elemOf F) places
  computeAll F (es.insertionSort elemLe) (fun _ => none)

/-- mcc.cpp 188-194 and 260-266: the value for a place of the result, which must be in the table. -/
def lookup (F : Factor K) (m : LookupMap K) (q : Nat × Nat) : Out K := do
  let e ← elemOf F q
  let idx ← computeIndex F.n e.1 e.2
  match m idx with
  | none => .ub
  | some v => return v

/-- mcc.cpp 160-161: the places of the upper triangle of a block. -/
def upperPairs (vdim : Nat) : List (Nat × Nat) :=
  (List.range vdim).flatMap fun rr => (List.range' rr (vdim - rr)).map fun cc => (rr, cc)

/-- A block of memory written by the function: what has been written where. -/
abbrev Memory (K : Type) := Nat → Option K

/-- mcc.cpp 195-197: a value is written to both places of the block. -/
def writePair (vdim : Nat) (mem : Memory K) (q : Nat × Nat) (v : K) : Memory K := fun i =>
  if i = q.2 * vdim + q.1 ∨ i = q.1 * vdim + q.2 then some v else mem i

/-- mcc.cpp 185-198: one block is written. -/
def writeBlock (F : Factor K) (m : LookupMap K) (base vdim : Nat) : List (Nat × Nat) → Memory K → Out (Memory K)
  | [], mem => .ok mem
  | q :: qs, mem => do
    let v ← lookup F m (base + q.1, base + q.2)
    writeBlock F m base vdim qs (writePair vdim mem q v)

/-- mcc.cpp 152-201, `computeCovariance(covBlocks, blockIndices)`: the memory of the blocks, at first not
written.  The sizes of the blocks are the differences of the indices. -/
def computeCovariance (F : Factor K) (bi : List Nat) : Out (List (Memory K)) := do
  let m ← fillMap F ((List.range bi.length).flatMap fun i =>
    (upperPairs (size bi i)).map fun q => (base bi i + q.1, base bi i + q.2))
  collect (fun i => writeBlock F m (base bi i) (size bi i) (upperPairs (size bi i)) fun _ => none)
    (List.range bi.length)

/-- mcc.cpp 226-227: the places of a block. -/
def allPairs (rows cols : Nat) : List (Nat × Nat) :=
  (List.range rows).flatMap fun i => (List.range cols).map fun j => (i, j)

/-- The places of a block in the whole matrix (mcc.cpp 221-229). -/
def blockPlaces (rbi : List Nat) (b : Nat × Nat) : List (Nat × Nat) :=
  (allPairs (size rbi b.1) (size rbi b.2)).map fun q => (base rbi b.1 + q.1, base rbi b.2 + q.2)

/-- mcc.cpp 249-268: the entries of one block of the result are set. -/
def setBlock (F : Factor K) (m : LookupMap K) (rbi : List Nat) (b : Nat × Nat) (S : SBM K) : Out (SBM K) := do
  let vs ← collect (lookup F m) (blockPlaces rbi b)
  return S.modBlk b.1 b.2 fun J => { J with get := fun i j => vs.getD (i * size rbi b.2 + j) 0 }

/-- The loop of `setBlock` over the blocks. -/
def setBlocks (F : Factor K) (m : LookupMap K) (rbi : List Nat) : List (Nat × Nat) → SBM K → Out (SBM K)
  | [], S => .ok S
  | b :: bs, S => do
    let S ← setBlock F m rbi b S
    setBlocks F m rbi bs S

/-- mcc.cpp 203-270, `computeCovariance(spinv, rowBlockIndices, blockIndices)`. -/
def computeCovarianceSparse (F : Factor K) (rbi : List Nat) (blocks : List (Nat × Nat)) : Out (SBM K) :=
  if ¬ ∀ b ∈ blocks, b.1 < rbi.length ∧ b.2 < rbi.length then .ub
  else do
    let S := blocks.foldl (fun S b => S.modBlk b.1 b.2 id) (SBM.new rbi rbi)
    let m ← fillMap F (blocks.flatMap (blockPlaces rbi))
    setBlocks F m rbi blocks S

/-- The arrays of a `cholmod_factor`: `p`, `i`, `x` and `Perm`. -/
structure Chol (K : Type) where
  p : List Nat
  i : List Nat
  x : List K
  perm : List Nat

/-- cholmod.h 185-189: `pinv(p[i]) = i`. -/
def invertPerm (n : Nat) (p : List Nat) : Out (List Nat) :=
  (List.range n).foldlM (fun (acc : List Nat) (i : Nat) =>
    match p[i]? with
    | none => .ub
    | some k => if n ≤ k then .ub else return acc.set k i) (List.replicate n 0)

/-- cholmod.h 164-202, `solvePattern`: `chol` factorises the symmetric matrix of which the upper triangle is given
(`none`: it is not positive definite); `none`: returns `false`. -/
def solvePattern (chol : Mat K → Option (Chol K)) (blocks : List (Nat × Nat)) (A : SBM K) :
    Out (Option (SBM K)) :=
  match chol A.toDense with
  | none => .ok none
  | some L => do
    let n := total A.cbi
    let pinv ← invertPerm n L.perm
    let F ← setCholeskyFactor n L.p L.i L.x (some pinv)
    let S ← computeCovarianceSparse F A.rbi blocks
    return some S

/-- Optimizer.cpp 748-754, `computeCovarianceBlocks`: `_invH` from `_H`. -/
def computeCovarianceBlocks (chol : Mat K → Option (Chol K)) (H : SBM K) (blocks : List (Nat × Nat)) :
    Out (SBM K) := do
  let r ← solvePattern chol blocks H
  match r with
  | none => .raise
  | some S => return S

/-- Optimizer.cpp 739-746, `computeDiagonalCovariances`; `n` is the number of design variables. -/
def computeDiagonalCovariances (chol : Mat K → Option (Chol K)) (H : SBM K) (n : Nat) : Out (SBM K) :=
  computeCovarianceBlocks chol H ((List.range n).map fun i => (i, i))

/-- Optimizer.cpp 757-766, `computeCovariances`. -/
def computeCovariances (chol : Mat K → Option (Chol K)) (H : SBM K) (n : Nat) : Out (SBM K) :=
  computeCovarianceBlocks chol H
    ((List.range n).flatMap fun i => (List.range' i (n - i)).map fun j => (i, j))

end Kalibr.Cov
