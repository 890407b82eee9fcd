import Verif.Common
import Verif.Mat

/-!
# Model of `SparseBlockMatrix`

Source: `/repo/aslam_optimizer/aslam_sparse_block_matrix/include/aslam_sparse_block_matrix/`
`sparse_block_matrix.h` and `implementation/sparse_block_matrix.hpp` (cited as `.hpp`).

Simplifications: dynamic blocks, exact arithmetic, indices do not overflow; matrices own their blocks
(`_hasStorage`), so views are not modelled; layout vectors are not empty where the code takes the
address of their first element.  Each nested loop "for every block column, for every entry of its map"
is a fold over the list of stored blocks in that order.
-/

namespace Kalibr.Sparse

variable {K : Type}

/-- `sparse_block_matrix.h` 246-250: cumulative row and column layouts, and for each block column the
map from block row to block, as a list in increasing order of block row. -/
structure SBM (K : Type) where
  rbi : List Nat
  cbi : List Nat
  bcols : List (List (Nat × Mat K))

/-- `rowBaseOfBlock` and `colBaseOfBlock`, `sparse_block_matrix.h` 129-132. -/
def base (bi : List Nat) (k : Nat) : Nat := if k = 0 then 0 else bi.getD (k - 1) 0

/-- `rowsOfBlock` and `colsOfBlock`, `sparse_block_matrix.h` 123-126. -/
def size (bi : List Nat) (k : Nat) : Nat :=
  if k = 0 then bi.getD 0 0 else bi.getD k 0 - bi.getD (k - 1) 0

/-- `rows()` and `cols()`, `sparse_block_matrix.h` 66-68. -/
def total (bi : List Nat) : Nat := bi.getLast?.getD 0

/-- Constructor, `.hpp` 37-63: no block is stored. -/
def SBM.new (rbi cbi : List Nat) : SBM K := ⟨rbi, cbi, List.replicate cbi.length []⟩

/-- `std::map::find` in a block column. -/
def mapFind (m : List (Nat × Mat K)) (r : Nat) : Option (Mat K) :=
  (m.find? fun p => p.1 = r).map (·.2)

/-- Access to the entry for `r` in a block column, created with value `z` if missing, and
modification of it by `f`. -/
def mapMod (r : Nat) (z : Mat K) (f : Mat K → Mat K) : List (Nat × Mat K) → List (Nat × Mat K)
  | [] => [(r, f z)]
  | p :: m =>
    if r < p.1 then (r, f z) :: p :: m
    else if p.1 < r then p :: mapMod r z f m
    else (p.1, f p.2) :: m

/-- `block(r, c)`, `.hpp` 145-154. -/
def SBM.blk (A : SBM K) (r c : Nat) : Option (Mat K) := mapFind (A.bcols.getD c []) r

/-- `block(r, c, true)`, `.hpp` 120-143, followed by a modification of the block. -/
def SBM.modBlk [Zero K] (A : SBM K) (r c : Nat) (f : Mat K → Mat K) : SBM K :=
  { A with bcols := A.bcols.modify c (mapMod r (Mat.zero (size A.rbi r) (size A.cbi c)) f) }

/-- The stored blocks in the order of the loops. -/
def SBM.blocks (A : SBM K) : List (Nat × Nat × Mat K) :=
  A.bcols.zipIdx.flatMap fun x => x.1.map fun p => (p.1, x.2, p.2)

/-- `toDenseInto`, `.hpp` 178-201. -/
def SBM.toDense [Zero K] (A : SBM K) : Mat K where
  rows := total A.rbi
  cols := total A.cbi
  get := A.blocks.foldl (fun H b => assign H (base A.rbi b.1) (base A.cbi b.2.1)
    (size A.rbi b.1) (size A.cbi b.2.1) b.2.2) (fun _ _ => 0)
where
  /-- `H.block(r0, c0, rs, cs) = J`. -/
  assign (H : Nat → Nat → K) (r0 c0 rs cs : Nat) (J : Mat K) : Nat → Nat → K := fun i j =>
    if r0 ≤ i ∧ i < r0 + rs ∧ c0 ≤ j ∧ j < c0 + cs then J.get (i - r0) (j - c0) else H i j

/-- `operator()(r, c)`, `.hpp` 210-236.  `std::upper_bound` is the first index whose entry exceeds the
given one. -/
def SBM.at [Zero K] (A : SBM K) (r c : Int) : Out K :=
  if ¬(0 ≤ r ∧ r < (total A.rbi : Nat)) then .raise
  else if ¬(0 ≤ c ∧ c < (total A.cbi : Nat)) then .raise
  else
    let r := r.toNat
    let c := c.toNat
    let brow := A.rbi.findIdx fun x => r < x
    let bcol := A.cbi.findIdx fun x => c < x
    match A.blk brow bcol with
    | none => .ok 0
    | some B => .ok (B.get (r - base A.rbi brow) (c - base A.cbi bcol))

/-- `transpose(dest)` for a given destination, `.hpp` 238-267; `none` is the return value `false`. -/
def SBM.transposeInto [Zero K] (A dest : SBM K) : Option (SBM K) :=
  if A.rbi ≠ dest.cbi ∨ A.cbi ≠ dest.rbi then none
  else some (A.blocks.foldl (fun D b => D.modBlk b.2.1 b.1 fun _ => b.2.2.transpose) dest)

/-- `transpose()`, `.hpp` 269-276. -/
def SBM.transpose [Zero K] (A : SBM K) : Option (SBM K) :=
  A.transposeInto (SBM.new A.cbi A.rbi)

/-- `add(dest)`, `.hpp` 279-308: adds this matrix to the destination. -/
def SBM.addInto [Zero K] [Add K] (A dest : SBM K) : Option (SBM K) :=
  if A.rbi ≠ dest.rbi ∨ A.cbi ≠ dest.cbi then none
  else some (A.blocks.foldl (fun D b => D.modBlk b.1 b.2.1 fun d => d.add b.2.2) dest)

/-- The loop of `multiply(dest, M)`, `.hpp` 323-343. -/
def SBM.mulLoop [NonUnitalNonAssocSemiring K] (A M dest : SBM K) : SBM K :=
  M.blocks.foldl (fun D b =>
    (A.bcols.getD b.1 []).foldl (fun D a => D.modBlk a.1 b.2.1 fun c => c.add (a.2.mul b.2.2)) D) dest

/-- `multiply(dest, M)` for a given destination, `.hpp` 310-345.  The layout of the destination is not
checked; a destination of another layout is outside the model (`ub`). -/
def SBM.multiplyInto [NonUnitalNonAssocSemiring K] (A M dest : SBM K) : Out (Option (SBM K)) :=
  if A.cbi ≠ M.rbi then .ok none
  else if dest.rbi ≠ A.rbi ∨ dest.cbi ≠ M.cbi then .ub
  else .ok (some (A.mulLoop M dest))

/-- `operator*(M)`, `.hpp` 347-355. -/
def SBM.mul [NonUnitalNonAssocSemiring K] (A M : SBM K) : Out (SBM K) :=
  match A.multiplyInto M (SBM.new A.rbi M.cbi) with
  | .ok (some C) => .ok C
  | .ok none => .raise
  | .raise => .raise
  | .ub => .ub

/-- `axpy`, `.hpp` 357-365 and 424-432: `y.segment(yoff, rows) += J * x.segment(xoff, cols)`. -/
def axpy [NonUnitalNonAssocSemiring K] (J : Mat K) (x : Nat → K) (xoff : Nat) (y : Nat → K)
    (yoff : Nat) : Nat → K := fun n =>
  if yoff ≤ n ∧ n < yoff + J.rows then
    y n + ∑ k ∈ Finset.range J.cols, J.get (n - yoff) k * x (xoff + k)
  else y n

/-- The loop of `multiply(double*&, const double*)`, `.hpp` 377-398, from the given destination. -/
def SBM.mulVecInto [NonUnitalNonAssocSemiring K] (A : SBM K) (dest x : Nat → K) : Nat → K :=
  A.blocks.foldl (fun y b => axpy b.2.2 x (base A.cbi b.2.1) y (base A.rbi b.1)) dest

/-- `multiply(VectorXd*, const VectorXd&)`, `.hpp` 445-463: the destination is set to zero first. -/
def SBM.mulVec [NonUnitalNonAssocSemiring K] (A : SBM K) (x : Nat → K) : Nat → K :=
  A.mulVecInto (fun _ => 0) x

/-- `rightMultiply(VectorXd*, const VectorXd&)`, `.hpp` 465-484 (`atxpy` is `axpy` of the transposed
block). -/
def SBM.rightMulVec [NonUnitalNonAssocSemiring K] (A : SBM K) (x : Nat → K) : Nat → K :=
  A.blocks.foldl (fun y b => axpy b.2.2.transpose x (base A.rbi b.1) y (base A.cbi b.2.1)) fun _ => 0

/-- `scale`, `.hpp` 511-519. -/
def SBM.scale [Mul K] (a : K) (A : SBM K) : SBM K :=
  { A with bcols := A.bcols.map fun m => m.map fun p => (p.1, p.2.scale a) }

/-- The cumulative layout built by `slice`, `.hpp` 543-553: sizes of the blocks `lo`, `lo+1`, ...,
`n` of them, summed up. -/
def cumul (bi : List Nat) (lo : Nat) : Nat → List Nat
  | 0 => []
  | n + 1 => cumul bi lo n ++ [(cumul bi lo n).getLast?.getD 0 + size bi (lo + n)]

/-- `slice`, `.hpp` 539-566, as a deep copy.  An empty range writes outside a stack array, a range
outside the matrix reads outside it: `ub`. -/
def SBM.slice (A : SBM K) (rmin rmax cmin cmax : Nat) : Out (SBM K) :=
  if ¬(rmin < rmax ∧ cmin < cmax ∧ rmax ≤ A.rbi.length ∧ cmax ≤ A.cbi.length) then .ub
  else .ok
    { rbi := cumul A.rbi rmin (rmax - rmin)
      cbi := cumul A.cbi cmin (cmax - cmin)
      bcols := (List.range (cmax - cmin)).map fun i =>
        ((A.bcols.getD (cmin + i) []).filter fun p => rmin ≤ p.1 ∧ p.1 < rmax).map fun p =>
          (p.1 - rmin, p.2) }

end Kalibr.Sparse
