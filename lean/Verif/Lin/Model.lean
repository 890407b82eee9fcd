import Verif.Common
import Verif.Mat
import Mathlib.Algebra.Order.Field.Basic

/-!
# Model of the linear solver of the incremental estimator

Sources, in `aslam_incremental_calibration/aslam_incremental_calibration/src`: `algorithms/linalg.cpp`,
`core/LinearSolver.cpp`, `algorithms/marginalize.cpp`.

Sparse matrices are the matrices they hold (the arrays are the subject of `CCM`).  `double` is a field with an order, the
square root is a parameter, and so are the decompositions of SuiteSparseQR and of `Eigen::JacobiSVD`.  Not modelled:
allocation and its failures, null pointers, the elapsed times, the tolerance handed to SuiteSparseQR, and that the symbolic
part of the factorisation is reused for matrices with the same number of entries.
-/

namespace Kalibr.Lin

variable {K : Type} [Field K] [LinearOrder K]

/-- What `SuiteSparseQR_numeric` leaves behind: the orthogonal factor used by `SuiteSparseQR_qmult`, and
`SuiteSparseQR_solve` with `SPQR_RETX_EQUALS_B`. -/
structure Spqr (K : Type) where
  q : Nat → Nat → K
  solve : (Nat → K) → Nat → K

/-- The singular values and the two orthogonal factors of `Eigen::JacobiSVD`. -/
structure Svd (K : Type) where
  sv : List K
  U : Mat K
  V : Mat K

/-- The libraries. `qr` is `none` when the factorisation fails. -/
structure Tools (K : Type) where
  sqrt : K → K
  qr : Mat K → Option (Spqr K)
  svd : Mat K → Svd K
  /-- The number of stored entries. -/
  nnz : Mat K → Nat

/-- The options that are used (LinearSolver.h); `svdTol` is `-1` to have it computed. -/
structure Options (K : Type) where
  columnScaling : Bool
  epsNorm : K
  epsSVD : K
  svdTol : K

/-- The members of the solver that are read by the accessors (`_svGap` is `none` for infinity). -/
structure State (K : Type) where
  sv : List K
  U : Mat K
  V : Mat K
  svdRank : Int
  svdRankDeficiency : Int
  svdTolerance : K
  svGap : Option K
  /-- `_factor->QRsym`: `m`, `n` and `anz`, if there is a factor. -/
  factor : Option (Nat × Nat × Nat)

/-- LinearSolver.cpp 562-575, `clear`. -/
def cleared : State K := ⟨[], ⟨0, 0, fun _ _ => 0⟩, ⟨0, 0, fun _ _ => 0⟩, -1, -1, -1, none, none⟩

/-- linalg.cpp 42-73, `columnSubmatrix`: from `colStartIdx` to `colEndIdx`, both included. -/
def columnSubmatrix (A : Mat K) (colStartIdx colEndIdx : Int) : Out (Mat K) :=
  if colEndIdx < colStartIdx then .raise
  else if (A.cols : Int) ≤ colEndIdx then .raise
  else if colStartIdx < 0 then .raise
  else .ok ⟨A.rows, (colEndIdx - colStartIdx + 1).toNat, fun i j => A.get i (colStartIdx.toNat + j)⟩

/-- linalg.cpp 75-105, `rowSubmatrix`. -/
def rowSubmatrix (A : Mat K) (rowStartIdx rowEndIdx : Int) : Out (Mat K) :=
  if rowEndIdx < rowStartIdx then .raise
  else if (A.rows : Int) ≤ rowEndIdx then .raise
  else if rowStartIdx < 0 then .raise
  else .ok ⟨(rowEndIdx - rowStartIdx + 1).toNat, A.cols, fun i j => A.get (rowStartIdx.toNat + i) j⟩

/-- linalg.cpp 107-127, `colNorm`. -/
def colNorm (T : Tools K) (A : Mat K) (j : Nat) : K :=
  T.sqrt (∑ i ∈ Finset.range A.rows, A.get i j * A.get i j)

/-- linalg.cpp 129-153, `columnScalingMatrix`. -/
def columnScalingMatrix (T : Tools K) (A : Mat K) (eps : K) (j : Nat) : K :=
  if colNorm T A j < T.sqrt ((A.rows : K) * eps) then 0 else 1 / colNorm T A j

/-- `cholmod_l_scale(G, CHOLMOD_COL, A)`. -/
def scaleColumns (A : Mat K) (G : Nat → K) : Mat K := ⟨A.rows, A.cols, fun i j => A.get i j * G j⟩

/-- `cholmod_l_scale(G, CHOLMOD_ROW, A)`. -/
def scaleRows (A : Mat K) (G : Nat → K) : Mat K := ⟨A.rows, A.cols, fun i j => G i * A.get i j⟩

/-- linalg.cpp 245-255, `estimateNumericalRank`: the loop, in which `nrank` is one more than the index. -/
def rankFrom (sv : List K) (tol : K) : Nat → Nat
  | 0 => 0
  | 1 => 1
  | n + 2 => if tol < sv.getD (n + 1) 0 then n + 2 else rankFrom sv tol (n + 1)

/-- linalg.cpp 245-255. -/
def estimateNumericalRank (sv : List K) (tol : K) : Nat := rankFrom sv tol sv.length

/-- linalg.cpp 257-262, `rankTol`. -/
def rankTol (sv : List K) (eps : K) : Out K :=
  match sv with
  | [] => .raise
  | s :: l => .ok (s * eps * ((l.length + 1 : Nat) : K))

/-- linalg.cpp 275-283, `svGap`; division by zero is infinity. -/
def svGap (sv : List K) (rank : Int) : Out (Option K) :=
  if (sv.length : Int) < rank ∨ rank ≤ 0 then .raise
  else if rank < sv.length then
    (if sv.getD rank.toNat 0 = 0 then .ok none else .ok (some (sv.getD (rank.toNat - 1) 0 / sv.getD rank.toNat 0)))
  else .ok none

/-- linalg.cpp 285-338, `reduceLeftHandSide`: `Omega` and `A_rtQ`. `n` is `factor->QRsym->n`, the number of columns of the
factorised matrix. -/
def reduceLeftHandSide (F : Spqr K) (n : Nat) (Art : Mat K) : Out (Mat K × Mat K) := do
  let full := Art.mul ⟨Art.cols, Art.cols, F.q⟩
  let ArtQ ← columnSubmatrix full 0 n
  let ArtQ2 := ArtQ.mul ArtQ.transpose
  let Art2 := Art.mul Art.transpose
  return (⟨Art2.rows, Art2.cols, fun i j => Art2.get i j - ArtQ2.get i j⟩, ArtQ)

/-- linalg.cpp 340-411, `reduceRightHandSide`; `b` has one column. -/
def reduceRightHandSide (F : Spqr K) (n : Nat) (Art ArtQ b : Mat K) : Out (Mat K) := do
  let Artb := Art.mul b
  let QtbFull := (Mat.transpose ⟨b.rows, b.rows, F.q⟩).mul b
  let Qtb ← rowSubmatrix QtbFull 0 n
  let ArtQQtb := ArtQ.mul Qtb
  return ⟨Artb.rows, Artb.cols, fun i j => Artb.get i j - ArtQQtb.get i j⟩

/-- linalg.cpp 427-444, `solveSVD`. A singular value of zero among the first `rank` gives no numbers; this is `ub`. -/
def solveSVD (b : Mat K) (S : Svd K) (rank : Nat) : Out (Nat → K) :=
  if S.V.cols < rank then .raise
  else if S.V.cols ≠ S.sv.length ∨ S.U.rows ≠ b.rows then .raise
  else if ∃ k ∈ List.range rank, S.sv.getD k 0 = 0 then .ub
  else .ok fun c => ∑ k ∈ Finset.range rank,
    S.V.get c k * (1 / S.sv.getD k 0) * ∑ i ∈ Finset.range b.rows, S.U.get i k * b.get i 0

/-- linalg.cpp 446-502, `solveQR`. -/
def solveQR (F : Spqr K) (b Ar : Mat K) (xr : Nat → K) : Nat → K :=
  F.solve fun i => ∑ l ∈ Finset.range b.rows, F.q l i *
    (b.get l 0 - ∑ c ∈ Finset.range Ar.cols, Ar.get l c * xr c)

/-- LinearSolver.cpp 305-320, 360-386: the part of the matrix, its columns scaled if that is asked for, and the scales. -/
def scaledPart (T : Tools K) (o : Options K) (A : Mat K) (s e : Int) : Out (Mat K × (Nat → K)) := do
  let P ← columnSubmatrix A s e
  if o.columnScaling then
    return (scaleColumns P (columnScalingMatrix T P o.epsNorm), columnScalingMatrix T P o.epsNorm)
  else return (P, fun _ => 1)

/-- LinearSolver.cpp 424-428, 520-524: the rank of the singular values. -/
def rankState (o : Options K) (f : Nat × Nat × Nat) (S : Svd K) : Out (State K) := do
  let tol ← (if o.svdTol = -1 then rankTol S.sv o.epsSVD else .ok o.svdTol)
  let rank := estimateNumericalRank S.sv tol
  let gap ← svGap S.sv rank
  return ⟨S.sv, S.U, S.V, rank, (S.sv.length : Int) - rank, tol, gap, some f⟩

/-- LinearSolver.cpp 299-464, `solve`. The members after an exception are not modelled. -/
def solve (T : Tools K) (o : Options K) (A b : Mat K) (j : Int) : Out (State K × (Nat → K)) := do
  if A.rows ≠ b.rows then .raise
  else do
    let (Al, Gl) ← scaledPart T o A 0 (j - 1)
    match T.qr Al with
    | none => .raise
    | some F => do
      let (Ar, Gr) ← scaledPart T o A j ((A.cols : Int) - 1)
      let Art := Ar.transpose
      let (Omega, ArtQ) ← reduceLeftHandSide F Al.cols Art
      let S := T.svd Omega
      let br ← reduceRightHandSide F Al.cols Art ArtQ b
      let st ← rankState o (Al.rows, Al.cols, T.nnz Al) S
      let xr ← solveSVD br S st.svdRank.toNat
      let xl := solveQR F b Ar xr
      return (st, fun c => if c < Al.cols then Gl c * xl c else Gr (c - Al.cols) * xr (c - Al.cols))

/-- LinearSolver.cpp 245-285, `solveSystem`: the step, or `none` if it returns `false`. -/
def solveSystem (T : Tools K) (o : Options K) (A b : Mat K) (margStartIndex : Int) : Out (Option (Nat → K)) :=
  match solve T o A b margStartIndex with
  | .ok r => .ok (some r.2)
  | .raise => .ok none
  | .ub => .ub

/-- LinearSolver.cpp 469-473: a factor of other sizes is dropped, and everything with it. (That a factor of the same sizes is
taken for one of the same pattern is not modelled.) -/
def checkFactor (st : State K) (f : Nat × Nat × Nat) : State K :=
  if st.factor ≠ none ∧ st.factor ≠ some f then cleared else st

/-- LinearSolver.cpp 466-528, `analyzeMarginal`: the rank is computed only if there is none yet. -/
def analyzeMarginal (T : Tools K) (o : Options K) (st : State K) (A : Mat K) (j : Int) : Out (State K) := do
  let Al ← columnSubmatrix A 0 (j - 1)
  match T.qr Al with
  | none => .raise
  | some F => do
    let Ar ← columnSubmatrix A j ((A.cols : Int) - 1)
    let (Omega, _) ← reduceLeftHandSide F Al.cols Ar.transpose
    let S := T.svd Omega
    let f := (Al.rows, Al.cols, T.nnz Al)
    if (checkFactor st f).svdRank = -1 then rankState o f S
    else return { checkFactor st f with sv := S.sv, U := S.U, V := S.V, factor := some f }

/-- LinearSolver.cpp 166-171, `getNullSpace`. -/
def getNullSpace (st : State K) : Mat K :=
  if st.svdRank ≠ -1 ∧ st.svdRank ≤ st.V.cols then
    ⟨st.V.rows, ((st.V.cols : Int) - st.svdRank).toNat, fun i k => st.V.get i (st.svdRank.toNat + k)⟩
  else ⟨0, 0, fun _ _ => 0⟩

/-- LinearSolver.cpp 180-187, `getCovariance`. -/
def getCovariance (st : State K) : Mat K :=
  if st.svdRank ≠ -1 ∧ st.svdRank ≤ st.V.cols then
    ⟨st.V.rows, st.V.rows, fun i j => ∑ k ∈ Finset.range st.svdRank.toNat,
      st.V.get i k * (1 / st.sv.getD k 0) * st.V.get j k⟩
  else ⟨0, 0, fun _ _ => 0⟩

/-- marginalize.cpp 53-129, `marginalJacobian`. -/
def marginalJacobian (T : Tools K) (Jx Jtt : Mat K) : Out (Mat K) :=
  match T.qr Jx with
  | none => .raise
  | some F =>
    let full := Jtt.mul ⟨Jtt.cols, Jtt.cols, F.q⟩
    if full.cols < Jx.cols then .raise
    else
      let JttQ : Mat K := ⟨full.rows, Jx.cols, full.get⟩
      let Jtt2 := Jtt.mul Jtt.transpose
      let JttQ2 := JttQ.mul JttQ.transpose
      .ok ⟨Jtt2.rows, Jtt2.cols, fun i k => Jtt2.get i k - JttQ2.get i k⟩

/-- What `marginalize` of marginalize.cpp delivers (the sum of logarithms as the list of the singular values summed). -/
structure Marginal (K : Type) where
  NS : Mat K
  CS : Mat K
  Sigma : Mat K
  SigmaP : Mat K
  Omega : Mat K
  logOf : List K

/-- marginalize.cpp 212-223, 255-266: the scales. -/
def normScale (T : Tools K) (A : Mat K) (normTol : K) (j : Nat) : K :=
  if colNorm T A j < normTol then 0 else 1 / colNorm T A j

/-- marginalize.cpp 131-350, `marginalize`, of a Jacobian (not transposed). Reading the first of no singular values is
`ub`, a division by zero gives no numbers, which is `ub` as well. -/
def marginalize (T : Tools K) (J : Mat K) (j : Nat) (normTol epsTol : K) : Out (Marginal K) :=
  if J.cols < j then .raise
  else do
    let Jx : Mat K := ⟨J.rows, j, J.get⟩
    let Jt : Mat K := ⟨J.rows, J.cols - j, fun i c => J.get i (j + c)⟩
    let Omega ← marginalJacobian T Jx Jt.transpose
    let OmegaScaled ← marginalJacobian T (scaleColumns Jx (normScale T Jx normTol))
      (scaleRows Jt.transpose (normScale T Jt normTol))
    let SS := (T.svd OmegaScaled).sv
    if SS = [] then .ub
    else
      let nrank := rankFrom SS ((OmegaScaled.rows : K) * SS.getD 0 0 * epsTol) OmegaScaled.cols
      let S := T.svd Omega
      if ∃ k ∈ List.range nrank, S.sv.getD k 0 = 0 then .ub
      else .ok {
        CS := ⟨S.V.rows, nrank, S.V.get⟩
        NS := ⟨S.V.rows, Omega.cols - nrank, fun i k => S.V.get i (nrank + k)⟩
        SigmaP := ⟨nrank, nrank, fun i k => if i = k then 1 / S.sv.getD i 0 else 0⟩
        Sigma := ⟨S.V.rows, S.V.rows, fun i k => ∑ l ∈ Finset.range nrank,
          S.V.get i l * (1 / S.sv.getD l 0) * S.V.get k l⟩
        Omega := Omega
        logOf := S.sv.take nrank }

end Kalibr.Lin
