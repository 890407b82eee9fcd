import Verif.Sparse.Model
import Verif.CCS

/-!
# Model of the exports of `SparseBlockMatrix`

Source: `/repo/aslam_optimizer/aslam_sparse_block_matrix/include/aslam_sparse_block_matrix/`
`implementation/sparse_block_matrix.hpp`: `fillCCS`, `fillUpperTriangleCCS`, `fillBlockStructure`,
`symmPermutation`.  The output pointers are lists that grow; the arrays given by the caller are large
enough.  Same simplifications as in `Model.lean`.
-/

namespace Kalibr.Sparse

variable {K : Type}

/-- What has been written so far, and the local `nz`. -/
structure Writer (K : Type) where
  cp : List Nat
  ci : List Nat
  cx : List K
  nz : Nat

/-- `*Cp = nz; ... ++Cp`. -/
def Writer.startCol (w : Writer K) : Writer K := { w with cp := w.cp ++ [w.nz] }

/-- `*Cx++ = v; *Ci++ = row; ++nz`. -/
def Writer.put (w : Writer K) (row : Nat) (v : K) : Writer K :=
  { w with ci := w.ci ++ [row], cx := w.cx ++ [v], nz := w.nz + 1 }

/-- `elemsToCopy`, lines 687-689 and 715-717. -/
def elems (A : SBM K) (upper : Bool) (i c : Nat) (p : Nat × Mat K) : Nat :=
  if upper = true ∧ base A.rbi p.1 = base A.cbi i then c + 1 else p.2.rows

/-- No block is read below its last row. -/
def inBounds (A : SBM K) (upper : Bool) : Bool :=
  (List.range A.bcols.length).all fun i => (List.range (size A.cbi i)).all fun c =>
    (A.bcols.getD i []).all fun p => elems A upper i c p ≤ p.2.rows

/-- The loop over the blocks of a column, lines 711-723 and 750-767. -/
def writeBlocks (A : SBM K) (upper : Bool) (i c : Nat) (w : Writer K) : Writer K :=
  (A.bcols.getD i []).foldl (fun w p =>
    (List.range (elems A upper i c p)).foldl (fun w k => w.put (base A.rbi p.1 + k) (p.2.get k c)) w) w

/-- `fillCCS(Cp, Ci, Cx, upperTriangle)`, lines 701-729; also gives the returned count. -/
def SBM.fillCCS (A : SBM K) (upper : Bool) : Out (Nat × CCS K) :=
  if inBounds A upper = false then .ub
  else
    let w := (List.range A.bcols.length).foldl (fun w i =>
      (List.range (size A.cbi i)).foldl (fun w c => writeBlocks A upper i c w.startCol) w) ⟨[], [], [], 0⟩
    .ok (w.nz, ⟨w.cp ++ [w.nz], w.ci, w.cx⟩)

/-- `fillCCS(Cx, upperTriangle)`, lines 677-699: only the values, column by column of each block. -/
def SBM.fillCCSValues (A : SBM K) (upper : Bool) : Out (Nat × List K) :=
  if inBounds A upper = false then .ub
  else
    let x := (List.range A.bcols.length).foldl (fun x i =>
      (List.range (size A.cbi i)).foldl (fun x c =>
        (A.bcols.getD i []).foldl (fun x p =>
          x ++ (List.range (elems A upper i c p)).map fun k => p.2.get k c) x) x) []
    .ok (x.length, x)

/-- The second loop of `fillUpperTriangleCCS`, lines 771-793: the mirrored part of the column. -/
def writeMirror (A : SBM K) (i c : Nat) (w : Writer K) : Writer K :=
  (List.range (A.bcols.length - i)).foldl (fun w d =>
    match A.blk i (i + d) with
    | none => w
    | some b =>
      let start := if d = 0 then c + 1 else 0
      let rstart := base A.cbi (i + d) + start
      (List.range (size A.cbi (i + d) - start)).foldl (fun w k =>
        w.put (rstart + k) (b.get c (start + k))) w) w

/-- No mirrored block is read below its last row. -/
def mirrorInBounds (A : SBM K) : Bool :=
  (List.range A.bcols.length).all fun i => (List.range (A.bcols.length - i)).all fun d =>
    match A.blk i (i + d) with
    | none => true
    | some b => size A.cbi i ≤ b.rows

/-- `fillUpperTriangleCCS(Cp, Ci, Cx)`, lines 731-800. -/
def SBM.fillUpperTriangleCCS (A : SBM K) : Out (Nat × CCS K) :=
  if inBounds A true = false ∨ mirrorInBounds A = false then .ub
  else
    let w := (List.range A.bcols.length).foldl (fun w i =>
      (List.range (size A.cbi i)).foldl (fun w c =>
        writeMirror A i c (writeBlocks A true i c w.startCol)) w) ⟨[], [], [], 0⟩
    .ok (w.nz, ⟨w.cp ++ [w.nz], w.ci, w.cx⟩)

/-- `fillBlockStructure`, lines 859-884: the block rows not below the diagonal, without values. -/
def SBM.fillBlockStructure (A : SBM K) : CCS Unit :=
  let w := (List.range A.bcols.length).foldl (fun w i =>
    (A.bcols.getD i []).foldl (fun w p => if p.1 ≤ i then w.put p.1 () else w) (Writer.startCol w))
    (⟨[], [], [], 0⟩ : Writer Unit)
  ⟨w.cp ++ [w.nz], w.ci, w.cx⟩

/-- The permuted layout of `symmPermutation`, lines 616-633: the size of block `i` goes to place
`pinv[i]`, then the sizes are summed up. -/
def permLayout (A : SBM K) (pinv : List Nat) : List Nat :=
  let sizes := (List.range A.rbi.length).foldl (fun l i => l.set (pinv.getD i 0) (size A.rbi i))
    (List.replicate A.rbi.length 0)
  (List.range A.rbi.length).map fun i => (sizes.take (i + 1)).sum

/-- `symmPermutation` with no destination given, lines 613-675.  If `pinv` is not a permutation of the
blocks, uninitialised memory is read (`ub`). -/
def SBM.symmPermutation [Zero K] (A : SBM K) (pinv : List Nat) (upper : Bool) : Out (SBM K) :=
  if ¬(pinv.Perm (List.range A.rbi.length)) ∨ A.bcols.length < A.rbi.length then .ub
  else
    .ok ((List.range A.rbi.length).foldl (fun D i =>
      (A.bcols.getD i []).foldl (fun D p =>
        let pi := pinv.getD i 0
        let pj := pinv.getD p.1 0
        if upper = false ∨ pj ≤ pi then D.modBlk pj pi fun _ => p.2
        else D.modBlk pi pj fun _ => p.2.transpose) D)
      (SBM.new (permLayout A pinv) (permLayout A pinv)))

end Kalibr.Sparse
