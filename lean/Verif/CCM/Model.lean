import Verif.CCS
import Verif.Jacobian.Model
import Mathlib.Algebra.Order.Group.Unbundled.Abs
import Mathlib.Algebra.Order.Ring.Defs
import Mathlib.Data.List.Sort

/-!
# Model of `CompressedColumnMatrix` and of the sparse Jacobian builder

Source: `/repo/aslam_optimizer/aslam_backend/include/aslam_backend/backend/implementation/`
`CompressedColumnMatrix.hpp` (cited as `.hpp`) and `CompressedColumnJacobianTransposeBuilder.hpp`.

Simplifications: exact arithmetic; indices do not overflow; sizes are natural numbers; `resize` fills
with zeros, as for `std::vector`.  A pointer one past the last entry of a vector may be formed.
Reading or writing outside a vector or matrix is `ub`.
-/

namespace Kalibr.CCM

open Jacobian

variable {D K : Type}

/-- `_rows`, `_cols`, the arrays `_col_ptr`, `_row_ind`, `_values`, and `_hasDiagonalAppended`. -/
structure CCM (K : Type) where
  rows : Nat
  cols : Nat
  s : CCS K
  diag : Bool

/-- `checkMatrixDbg`, `.hpp` 5-8 (an assertion in all builds). -/
def CCM.check (m : CCM K) : Bool :=
  m.s.cp.getLast?.getD 0 = m.s.cx.length ∧ m.s.cp.getLast?.getD 0 = m.s.ci.length ∧
    m.s.cp.length = m.cols + 1

/-- `init`, `.hpp` 36-45. -/
def CCM.init (m : CCM K) (rows cols : Nat) : CCM K :=
  { m with rows := rows, cols := cols, s := { m.s with cp := List.replicate (cols + 1) 0 }, diag := false }

/-- Constructor, `.hpp` 24-27. -/
def CCM.new (rows cols : Nat) : CCM K := CCM.init ⟨0, 0, ⟨[], [], []⟩, false⟩ rows cols

/-- `clear`, `.hpp` 132-137. -/
def CCM.clear (m : CCM K) : CCM K := { m with s := ⟨List.replicate (m.rows + 1) 0, [], []⟩ }

/-- One entry of `toDenseInto`: `outM(_row_ind[v], c) = _values[v]`. -/
def put (H : Nat → Nat → K) (c : Nat) (p : Nat × K) : Nat → Nat → K := fun i j =>
  if i = p.1 ∧ j = c then p.2 else H i j

/-- `toDenseInto`, `.hpp` 118-127. -/
def CCM.toDense [Zero K] (m : CCM K) : Out (Mat K) :=
  if ((List.range (m.s.cp.length - 1)).all fun c =>
      m.s.cp.getD (c + 1) 0 ≤ m.s.ci.length ∧ m.s.cp.getD (c + 1) 0 ≤ m.s.cx.length ∧
      ((m.s.column c).all fun p => p.1 < m.rows ∧ c < m.cols)) = false then .ub
  else .ok ⟨m.rows, m.cols, (List.range (m.s.cp.length - 1)).foldl (fun H c =>
    (m.s.column c).foldl (fun H p => put H c p) H) fun _ _ => 0⟩

/-- `operator()`, `.hpp` 168-186.  `std::lower_bound` is the first entry whose row is not less. -/
def CCM.at [Zero K] (m : CCM K) (r c : Nat) : Out K :=
  if m.s.cp.length ≤ c + 1 ∨ m.s.ci.length < m.s.cp.getD (c + 1) 0 ∨
      m.s.cx.length < m.s.cp.getD (c + 1) 0 then .ub
  else match (m.s.column c).find? fun p => ¬p.1 < r with
    | none => .ok 0
    | some p => .ok (if p.1 = r then p.2 else 0)

/-- `value`, `.hpp` 158-163. -/
def CCM.value [Zero K] (m : CCM K) (r c : Nat) : Out K :=
  if ¬r < m.rows then .raise
  else if ¬c < m.cols then .raise
  else m.at r c

/-- Consecutive writes from position `i` on. -/
def writeAt {α : Type} (l : List α) (i : Nat) (v : List α) : List α :=
  l.take i ++ v ++ l.drop (i + v.length)

/-- The loops that write the blocks of a Jacobian, `.hpp` 266-280 and 290-303: block after block, for
each column `c` of the matrix the entries `content b c` at stride `epc`. -/
def writeBlocks {α β : Type} (n : β → Nat) (content : β → Nat → List α) (size : β → Nat)
    (start epc : Nat) : List β → Nat → List α → List α
  | [], _, l => l
  | b :: bs, rowOffset, l =>
    writeBlocks n content size start epc bs (rowOffset + size b)
      ((List.range (n b)).foldl (fun l c => writeAt l (start + c * epc + rowOffset) (content b c)) l)

/-- No write of `writeBlocks` leaves an array of the given length. -/
def writesFit {α β : Type} (n : β → Nat) (content : β → Nat → List α) (size : β → Nat)
    (start epc : Nat) : List β → Nat → Nat → Bool
  | [], _, _ => true
  | b :: bs, rowOffset, len =>
    ((List.range (n b)).all fun c => start + c * epc + rowOffset + (content b c).length ≤ len) &&
      writesFit n content size start epc bs (rowOffset + size b) len

/-- The loop that extends the column pointers, `.hpp` 261-264 and 332-336. -/
def extendPtr (cp : List Nat) (step n : Nat) : List Nat :=
  (List.range n).foldl (fun cp _ => cp ++ [cp.getLast?.getD 0 + step]) cp

/-- `JacobianColumnPointer`. -/
structure ColPtr where
  start : Nat
  epc : Nat

/-- The active variables in the order of the block index, `.hpp` 241-255 (`std::sort`; the variables of a
problem differ in their block index). -/
def activeSorted (env : Env D K) (dvs : List D) : List D :=
  (dvs.filter fun d => env.active d).insertionSort fun a b => env.blockIndex a ≤ env.blockIndex b

/-- `appendJacobiansSymbolic`, `.hpp` 236-285; `cb` is `columnBase`. -/
def CCM.appendSymbolic [Zero K] (env : Env D K) (cb : D → Nat) (m : CCM K) (Jrows : Nat)
    (dvs : List D) : Out (CCM K × ColPtr) :=
  if m.diag then .raise
  else
    let sorted := activeSorted env dvs
    let epc := ((dvs.filter fun d => env.active d).map env.dim).sum
    let start := m.s.ci.length
    let ci := m.s.ci ++ List.replicate (epc * Jrows) 0
    let content := fun (d : D) (_ : Nat) => (List.range (env.dim d)).map fun r => cb d + r
    if writesFit (fun _ => Jrows) content env.dim start epc sorted 0 ci.length = false then .ub
    else
      let m' : CCM K :=
        { rows := m.rows
          cols := m.cols + Jrows
          s :=
            { cp := extendPtr m.s.cp epc Jrows
              ci := writeBlocks (fun _ => Jrows) content env.dim start epc sorted 0 ci
              cx := m.s.cx ++ List.replicate (epc * Jrows) 0 }
          diag := m.diag }
      if m'.check = false then .raise else .ok (m', ⟨start, epc⟩)

/-- `writeJacobians`, `.hpp` 288-304. -/
def CCM.writeJacobians (m : CCM K) (jc : Container D K) (cp : ColPtr) : Out (CCM K) :=
  let content := fun (p : D × Mat K) (c : Nat) => (List.range p.2.cols).map fun r => p.2.get c r
  if writesFit (fun p => p.2.rows) content (fun p => p.2.cols) cp.start cp.epc jc.map 0
      m.s.cx.length = false then .ub
  else .ok { m with s := { m.s with
    cx := writeBlocks (fun p => p.2.rows) content (fun p => p.2.cols) cp.start cp.epc jc.map 0 m.s.cx } }

/-- `appendJacobians`, `.hpp` 218-228. -/
def CCM.appendJacobians [Zero K] (env : Env D K) (cb : D → Nat) (m : CCM K) (jc : Container D K) :
    Out (CCM K) :=
  (m.appendSymbolic env cb jc.rows (jc.map.map (·.1))).bind fun x => x.1.writeJacobians jc x.2

/-- `pushDiagonalBlock`, `.hpp` 315-342. -/
def CCM.pushDiagonal (m : CCM K) (d : List K) : Out (CCM K) :=
  if m.check = false then .raise
  else if d.length ≠ m.rows then .raise
  else if m.diag then .raise
  else .ok
    { rows := m.rows
      cols := m.cols + m.rows
      s :=
        { cp := extendPtr m.s.cp 1 m.rows
          ci := m.s.ci ++ List.range m.rows
          cx := m.s.cx ++ d }
      diag := true }

/-- `pushConstantDiagonalBlock`, `.hpp` 308-311. -/
def CCM.pushConstantDiagonal (m : CCM K) (x : K) : Out (CCM K) :=
  m.pushDiagonal (List.replicate m.rows x)

/-- `popDiagonalBlock`, `.hpp` 345-354. -/
def CCM.popDiagonal (m : CCM K) : Out (CCM K) :=
  if m.diag = false then .raise
  else
    let m' : CCM K :=
      { rows := m.rows
        cols := m.cols - m.rows
        s :=
          { cp := m.s.cp.take (m.s.cp.length - m.rows)
            ci := m.s.ci.take (m.s.ci.length - m.rows)
            cx := m.s.cx.take (m.s.cx.length - m.rows) }
        diag := false }
    if m'.check = false then .raise else .ok m'

/-- `updateDiagonalBlock`, `.hpp` 358-364.  A diagonal of another size is outside the model. -/
def CCM.updateDiagonal (m : CCM K) (d : List K) : Out (CCM K) :=
  if m.diag = false then .raise
  else if d.length ≠ m.rows ∨ m.s.cx.length < m.rows then .ub
  else .ok { m with s := { m.s with cx := writeAt m.s.cx (m.s.cx.length - m.rows) d } }

/-- The number of columns used by the products, `.hpp` 378 and 395. -/
def CCM.mulCols (m : CCM K) : Nat := if m.diag then m.cols - m.rows else m.cols

/-- The vectors and arrays are not read or written outside by the products. -/
def CCM.mulOk (m : CCM K) : Bool :=
  m.mulCols < m.s.cp.length ∧ (List.range m.mulCols).all fun c =>
    m.s.cp.getD (c + 1) 0 ≤ m.s.ci.length ∧ m.s.cp.getD (c + 1) 0 ≤ m.s.cx.length ∧
      (m.s.column c).all fun p => p.1 < m.rows

/-- `rightMultiply`, `.hpp` 375-387. -/
def CCM.rightMultiply [Add K] [Mul K] [Zero K] (m : CCM K) (x : List K) : Out (Nat → K) :=
  if x.length ≠ m.mulCols then .raise
  else if m.mulOk = false then .ub
  else .ok ((List.range m.mulCols).foldl (fun y c =>
    (m.s.column c).foldl (fun y p => fun i => if i = p.1 then y i + p.2 * x.getD c 0 else y i) y) fun _ => 0)

/-- `leftMultiply`, `.hpp` 392-404. -/
def CCM.leftMultiply [Add K] [Mul K] [Zero K] (m : CCM K) (x : List K) : Out (Nat → K) :=
  if x.length ≠ m.rows then .raise
  else if m.mulOk = false then .ub
  else .ok ((List.range m.mulCols).foldl (fun y c =>
    (m.s.column c).foldl (fun y p => fun i => if i = c then y i + p.2 * x.getD p.1 0 else y i) y) fun _ => 0)

/-- `fromDenseTolerance`, `.hpp` 415-434. -/
def CCM.fromDense [Lattice K] [AddGroup K] [DecidableLT K] (m : CCM K) (M : Mat K) (tol : K) :
    Out (CCM K) :=
  let m' : CCM K :=
    { rows := M.rows
      cols := M.cols
      s := (List.range M.cols).foldl (fun s c =>
        let s := (List.range M.rows).foldl (fun s r =>
          if |tol| < |M.get r c| then { s with cx := s.cx ++ [M.get r c], ci := s.ci ++ [r] } else s) s
        { s with cp := s.cp ++ [s.cx.length] }) ⟨[0], [], []⟩
      diag := m.diag }
  if m'.check = false then .raise else .ok m'

/-! ## The builder -/

/-- What the builder keeps for each error term: where its columns start. -/
def initStructure [Zero K] (env : Env D K) (cb : D → Nat) : CCM K → List (Nat × List D) →
    Out (CCM K × List ColPtr)
  | m, [] => .ok (m, [])
  | m, e :: es =>
    (m.appendSymbolic env cb e.1 e.2).bind fun x =>
      (initStructure env cb x.1 es).bind fun y => .ok (y.1, x.2 :: y.2)

/-- `initMatrixStructure`, `CompressedColumnJacobianTransposeBuilder.hpp` 21-56, for error terms given by
dimension and design variables; `rows` is the end of the last variable.  `m` is the matrix of before. -/
def initMatrixStructure [Zero K] (env : Env D K) (cb : D → Nat) (m : CCM K) (rows : Nat)
    (es : List (Nat × List D)) : Out (CCM K × List ColPtr) :=
  initStructure env cb (m.clear.init rows 0) es

/-- `evaluateJacobians`, `CompressedColumnJacobianTransposeBuilder.hpp` 98-107, for the weighted
Jacobians of the error terms in the order in which they are written. -/
def writeAll (m : CCM K) : List (Container D K × ColPtr) → Out (CCM K)
  | [] => .ok m
  | x :: xs => (m.writeJacobians x.1 x.2).bind fun m => writeAll m xs

end Kalibr.CCM
