import Verif.Motion.Model

/-!
# Model of the functions that construct a spline from data

Source: `aslam_nonparametric_estimation/aslam_bsplines/src/BSpline.cpp` (line numbers below refer to this file).

`double` is a linearly ordered field (exact arithmetic).  A dense matrix is a function of two indices, a stacked
vector a function of one index; their sizes are given where they matter.  The dimension `D` of the points is the
dimension of the type, so the checks that two points have the same dimension do not appear.  The decompositions
of Eigen and CHOLMOD are parameters (`Solvers`); what is assumed of them is stated in `Verif.Fit.Spec`.
Writing a block outside a matrix is `ub`.
-/

namespace Kalibr.Fit

open BSpline Motion Sparse

variable {K : Type} [Field K] [LinearOrder K] [IsStrictOrderedRing K] {D : Nat}

/-- The external solvers: `A.householderQr().solve(b)`, `A.ldlt().solve(b)`, and
`LinearSolverCholmod::solve(A, x, b)` (`none`: it returned `false`), each for a system of the given size. -/
structure Solvers (K : Type) where
  qr : Nat → (Nat → Nat → K) → (Nat → K) → Nat → K
  ldlt : Nat → (Nat → Nat → K) → (Nat → K) → Nat → K
  cholmod : Nat → (Nat → Nat → K) → (Nat → K) → Option (Nat → K)

/-- `Phi(t, derivativeOrder)` (464-500): `D × order·D`; block `i` is the identity times weight `i`. -/
def phi (s : Spline K D) (t : K) (d : Nat) : Out (Nat → Nat → K) := do
  let w ← localBi s t d
  return fun r c => if c % D = r ∧ c / D < s.order then w (c / D) else 0

/-- `bidx = computeTIndex(t).second - splineOrder_ + 1`, as in `localCoefficientMatrix` (405-410) and the
functions after it. -/
def localIndex (s : Spline K D) (t : K) : Out Nat := do
  let p ← computeTIndex s t
  if p.2 + 1 < s.order then .ub else return p.2 + 1 - s.order

/-- `localCoefficientVectorIndices(t)` (436-441): the indices in the stacked coefficient vector. -/
def localCoefficientVectorIndices (s : Spline K D) (t : K) : Out (List Nat) := do
  let b ← localIndex s t
  return List.range' (b * D) (s.order * D)

/-- `localVvCoefficientVectorIndices(t)` (451-456): the indices of the coefficients. -/
def localVvCoefficientVectorIndices (s : Spline K D) (t : K) : Out (List Nat) := do
  let b ← localIndex s t
  return List.range' b s.order

/-- `segmentCoefficientVectorIndices(segmentIdx)` (443-448); the index is not negative. -/
def segmentCoefficientVectorIndices (s : Spline K D) (seg : Nat) : Out (List Nat) :=
  if numValidTimeSegments s.order s.knots.length ≤ seg then .raise
  else .ok (List.range' (seg * D) (s.order * D))

/-- `segmentVvCoefficientVectorIndices(segmentIdx)` (458-462). -/
def segmentVvCoefficientVectorIndices (s : Spline K D) (seg : Nat) : Out (List Nat) :=
  if numValidTimeSegments s.order s.knots.length ≤ seg then .raise
  else .ok (List.range' seg s.order)

/-- The loop over the columns in `localCoefficientVector` and `segmentCoefficientVector` (417-420, 428-430):
the coefficients from `b` on, stacked. -/
def window (order : Nat) (c : List (Fin D → K)) (b : Nat) : Out (List K) :=
  if c.length < b + order then .ub
  else .ok (((c.drop b).take order).flatMap List.ofFn)

/-- `localCoefficientVector(t)` (412-422). -/
def localCoefficientVector (s : Spline K D) (t : K) : Out (List K) := do
  let b ← localIndex s t
  window s.order s.coeffs b

/-- `segmentCoefficientVector(segmentIdx)` (424-432); the index is not negative. -/
def segmentCoefficientVector (s : Spline K D) (seg : Nat) : Out (List K) :=
  if numValidTimeSegments s.order s.knots.length ≤ seg then .raise
  else window s.order s.coeffs seg

/-- `c.segment(i*D, D)` of a stacked vector. -/
def segmentAt (c : List K) (i : Nat) : Fin D → K := fun e => c.getD (i * D + e) 0

/-- `setLocalCoefficientVector(t, c)` (749-759). -/
def setLocalCoefficientVector (s : Spline K D) (t : K) (c : List K) : Out (Spline K D) :=
  if c.length ≠ s.order * D then .raise
  else do
    let b ← localIndex s t
    if s.coeffs.length < b + s.order then .ub
    else return { s with
      coeffs := s.coeffs.take b ++ (List.range s.order).map (segmentAt c) ++ s.coeffs.drop (b + s.order) }

/-- `setCoefficientVector(c)` (503-510). -/
def setCoefficientVector (s : Spline K D) (c : List K) : Out (Spline K D) :=
  if c.length ≠ D * s.coeffs.length then .raise
  else .ok { s with coeffs := (List.range s.coeffs.length).map (segmentAt c) }

/-- `coefficientVector()` (512-520). -/
def coefficientVector (s : Spline K D) : List K := s.coeffs.flatMap List.ofFn

/-- `setCoefficientMatrix(coefficients)` (523-528). -/
def setCoefficientMatrix (s : Spline K D) (c : List (Fin D → K)) : Out (Spline K D) :=
  if s.coeffs.length ≠ c.length then .raise else .ok { s with coeffs := c }

/-- `vvCoefficientVector(i)` (1751-1761), read; the index is not negative. -/
def vvCoefficientVector (s : Spline K D) (i : Nat) : Out (Fin D → K) :=
  match s.coeffs[i]? with
  | none => .raise
  | some v => .ok v

/-- The `Eigen::VectorXd` of size `n` with the entries of `x`. -/
def toVec (n : Nat) (x : Nat → K) : List K := (List.range n).map x

/-- The uniform knot sequence `knots[i] = t_0 + (i - splineOrder_ + 1) * dt` (567-571, 785-789). -/
def uniformKnots (order n : Nat) (t0 dt : K) : List K :=
  (List.range n).map fun i : Nat => t0 + ((i : K) - order + 1) * dt

/-- A block row of the system: the first block column, the matrix, and the right hand side. -/
structure Row (K : Type) (D : Nat) where
  start : Nat
  P : Nat → Nat → K
  rhs : Fin D → K

/-- `A.block(brow, start*D, D, order*D) = Phi(t, d)` and `b.segment(brow, D) = rhs` for a matrix with `C` block
columns, as in 585-589: the rows are collected in the order of `brow`. -/
def row (s : Spline K D) (C start : Nat) (t : K) (d : Nat) (rhs : Fin D → K) : Out (Row K D) := do
  let P ← phi s t d
  if C < start + s.order then .ub else return ⟨start, P, rhs⟩

/-- The matrix made of the block rows; rows that are not set are zero. -/
def denseA (order : Nat) (rows : List (Row K D)) : Nat → Nat → K := fun n m =>
  match rows[n / D]? with
  | none => 0
  | some r => if r.start * D ≤ m ∧ m < (r.start + order) * D then r.P (n % D) (m - r.start * D) else 0

/-- The right hand side made of the block rows. -/
def denseB (rows : List (Row K D)) : Nat → K := fun n =>
  match rows[n / D]? with
  | none => 0
  | some r => if h : n % D < D then r.rhs ⟨n % D, h⟩ else 0

/-- `A.transpose() * A` for a matrix with `n` rows. -/
def gram (n : Nat) (A : Nat → Nat → K) : Nat → Nat → K := fun i j => ∑ a ∈ Finset.range n, A a i * A a j

/-- `A.transpose() * b` for a matrix with `n` rows. -/
def gramRhs (n : Nat) (A : Nat → Nat → K) (b : Nat → K) : Nat → K := fun i =>
  ∑ a ∈ Finset.range n, A a i * b a

/-- The constraints on both ends for one derivative (585-592, 598-603, 612-617). -/
def ends (s : Spline K D) (C : Nat) (lo hi : K) (d : Nat) (a b : Fin D → K) : Out (List (Row K D)) := do
  let r0 ← row s C 0 lo d a
  let r1 ← row s C 0 hi d b
  return [r0, r1]

/-- The loop over the higher derivatives (610-619): `while(brow < A.rows())`; `brow` and the number of rows `R`
count blocks of `D` rows.  `fuel` bounds the number of turns: a loop that has not ended after `R` turns would
not end (`ub`). -/
def higher (s : Spline K D) (C R : Nat) (lo hi : K) : Nat → Nat → List (Row K D) → Out (List (Row K D))
  | 0, _, rows => if rows.length < R then .ub else .ok rows
  | fuel + 1, d, rows =>
    if rows.length < R then do
      let e ← ends s C lo hi d 0 0
      higher s C R lo hi fuel (d + 1) (rows ++ e)
    else .ok rows

/-- The block rows of `initSpline` (582-621). -/
def lineRows (s : Spline K D) (C R : Nat) (lo hi dt : K) (p0 p1 : Fin D → K) : Out (List (Row K D)) := do
  let e0 ← ends s C lo hi 0 p0 p1
  if 2 < s.order then do
    let e1 ← ends s C lo hi 1 (fun e => (p1 e - p0 e) / dt) (fun e => (p1 e - p0 e) / dt)
    if 4 < s.order then higher s C R lo hi R 2 (e0 ++ e1) else return e0 ++ e1
  else return e0

/-- `initSpline` (551-640).  `R` is `constraintsRequired`: `C` rounded up to an even number. -/
def initSpline (sol : Solvers K) (s : Spline K D) (t0 t1 : K) (p0 p1 : Fin D → K) : Out (Spline K D) :=
  if ¬ t0 < t1 then .raise
  else do
    let C := numCoefficientsRequired s.order 1
    let dt := t1 - t0
    let s ← setKnotsAndCoefficients s (uniformKnots s.order (numKnotsRequired s.order 1) t0 dt)
      (List.replicate C 0)
    let R := C + C % 2
    let lo ← tMin s
    let hi ← tMax s
    let rows ← lineRows s C R lo hi dt p0 p1
    if R < rows.length then .ub
    else
      let A := denseA s.order rows
      let b := denseB rows
      if R = C then setCoefficientVector s (toVec (C * D) (sol.qr (C * D) A b))
      else setCoefficientVector s (toVec (C * D) (sol.qr (C * D) (gram (R * D) A) (gramRhs (R * D) A b)))

/-- The new knots of `addCurveSegment` (662-674) for `km1`: knots up to `km1 + 1` stay, the others follow with
distance `dt`. -/
def extendKnots (knots : List K) (km1 : Nat) (t dt : K) : List K :=
  (List.range (knots.length + 1)).map fun i : Nat =>
    if i < km1 + 2 then knotAt knots i else t + ((i : K) - (km1 + 2 : Nat)) * dt

/-- `P.block(0, off*D, D, 2*D)` and `rhs - P.block(0, 0, D, off*D) * fixedCoefficients` for `P = Phi(t, 0)`
(697-707); `off` is `max(0, splineOrder_ - 2)`. -/
def extendRow (s : Spline K D) (off : Nat) (fixed : List K) (t : K) (rhs : Fin D → K) : Out (Row K D) := do
  let P ← phi s t 0
  return ⟨0, fun r c => P r (off * D + c), fun e =>
    rhs e - ∑ c ∈ Finset.range (off * D), P e c * fixed.getD c 0⟩

/-- The last two columns of the coefficient matrix are replaced (731-732). -/
def setLastTwo (c : List (Fin D → K)) (x : Nat → K) : List (Fin D → K) :=
  c.take (c.length - 2) ++ [fun e : Fin D => x e, fun e : Fin D => x (D + e)]

/-- `addCurveSegment` (642-737).  The new, uninitialised, column is `junk`. -/
def addCurveSegment (sol : Solvers K) (junk : Fin D → K) (s : Spline K D) (t : K) (p1 : Fin D → K) :
    Out (Spline K D) := do
  let hi ← tMax s
  if ¬ hi < t then .raise
  else
    let NT := numValidTimeSegments s.order s.knots.length
    let I ← timeInterval s (NT - 1)
    let p0 ← evalD s I.2 0
    let p ← computeTIndex s I.1
    if s.knots.length ≤ p.2 + 1 then .ub
    else
      let dt := t - knotAt s.knots (p.2 + 1)
      let s ← setKnotsAndCoefficients s (extendKnots s.knots p.2 t dt) (s.coeffs ++ [junk])
      let J ← timeInterval s NT
      let off := s.order - 2
      let fixed ← localCoefficientVector s J.1
      let r0 ← extendRow s off (fixed.take (off * D)) J.1 p0
      let r1 ← extendRow s off (fixed.take (off * D)) J.2 p1
      let x := sol.qr (2 * D) (denseA 2 [r0, r1]) (denseB [r0, r1])
      return { s with coeffs := setLastTwo s.coeffs x }

/-- The checks of the times (764-772): nondecreasing. -/
def timesOk (times : List K) : Prop := times.Pairwise (· ≤ ·)

instance (times : List K) : Decidable (timesOk times) := by unfold timesOk; infer_instance

/-- The block rows of the position constraints (1125-1136, and the same in the other functions). -/
def fitRows (s : Spline K D) (C : Nat) : List (K × (Fin D → K)) → Out (List (Row K D))
  | [] => .ok []
  | (t, p) :: rest => do
    let b ← localIndex s t
    let r ← row s C b t 0 p
    let rs ← fitRows s C rest
    return r :: rs

/-- The order of the derivative in the motion constraint (1154-1157). -/
def fitDerivative (order : Nat) : Nat := if order = 2 then 1 else 2

/-- `A.transpose() * A + Q` and `A.transpose() * b`. -/
def normalA (order : Nat) (rows : List (Row K D)) (Q : Nat → Nat → K) : Nat → Nat → K := fun i j =>
  gram (rows.length * D) (denseA order rows) i j + Q i j

/-- The right hand side of the normal equations. -/
def normalB (order : Nat) (rows : List (Row K D)) : Nat → K :=
  gramRhs (rows.length * D) (denseA order rows) (denseB rows)

/-- The first part of `initSpline2`, `initSplineSparse` and `initSpline3` (764-791, 968-997, 1092-1118): the
checks, a uniform knot sequence from the first to the last time, zero coefficients. -/
def fitKnots (s : Spline K D) (data : List (K × (Fin D → K))) (numSegments : Nat) : Out (Spline K D) :=
  if data.length < 2 then .raise
  else if numSegments < 1 then .raise
  else if ¬ timesOk (data.map Prod.fst) then .raise
  else
    let ts := data.map Prod.fst
    let dt := (ts.getD (ts.length - 1) 0 - ts.getD 0 0) / numSegments
    setKnotsAndCoefficients s (uniformKnots s.order (numKnotsRequired s.order numSegments) (ts.getD 0 0) dt)
      (List.replicate (numCoefficientsRequired s.order numSegments) 0)

/-- `initSpline3` (1090-1164).  The times and the points, whose numbers must be equal, are a list of pairs. -/
def initSpline3 (sol : Solvers K) (s : Spline K D) (data : List (K × (Fin D → K))) (numSegments : Nat)
    (lam : K) : Out (Spline K D) := do
  let s ← fitKnots s data numSegments
  let C := s.coeffs.length
  let rows ← fitRows s C data
  let Q ← curveQuadraticIntegralDiag s (List.replicate D lam) (fitDerivative s.order)
  setCoefficientVector s
    (toVec (C * D) (sol.ldlt (C * D) (normalA s.order rows Q) (normalB s.order rows)))

/-- The second part of `initSplineSparse` and `initSplineSparseKnots` (879-962, 1000-1085).  The sparse block
matrices `A`, `A'A` and `A'b` are represented by their contents; `Q` is the sparse matrix. -/
def sparseFit (sol : Solvers K) (s : Spline K D) (data : List (K × (Fin D → K))) (lam : K) :
    Out (Spline K D) := do
  let C := s.coeffs.length
  let rows ← fitRows s C data
  let Q ← curveQuadraticIntegralDiagSparse s (List.replicate D lam) (fitDerivative s.order)
  let A := normalA s.order rows Q.toDense.get
  let b := normalB s.order rows
  match sol.cholmod (C * D) A b with
  | some x => setCoefficientVector s (toVec (C * D) x)
  | none => setCoefficientVector s (toVec (C * D) (sol.ldlt (C * D) A b))

/-- `initSplineSparse` (966-1086). -/
def initSplineSparse (sol : Solvers K) (s : Spline K D) (data : List (K × (Fin D → K))) (numSegments : Nat)
    (lam : K) : Out (Spline K D) := do
  let s ← fitKnots s data numSegments
  sparseFit sol s data lam

/-- `initSplineSparseKnots` (848-963).  The number of knots is large enough for the subtraction in
`numCoefficientsRequired` not to go below zero, or the knots are rejected anyway. -/
def initSplineSparseKnots (sol : Solvers K) (s : Spline K D) (data : List (K × (Fin D → K))) (knots : List K)
    (lam : K) : Out (Spline K D) :=
  if data.length < 2 then .raise
  else if ¬ timesOk (data.map Prod.fst) then .raise
  else do
    let s ← setKnotsAndCoefficients s knots
      (List.replicate (numCoefficientsRequired s.order (knots.length - 2 * (s.order - 1) - 1)) 0)
    sparseFit sol s data lam

/-- `Eigen::VectorXd::LinSpaced(n, lo, hi)`, for `n ≥ 2`. -/
def linSpaced (n : Nat) (lo hi : K) : List K :=
  (List.range n).map fun i : Nat => lo + (i : K) * ((hi - lo) / ((n : K) - 1))

/-- `initConstantSpline` (1718-1743); `numSegments` is not negative. -/
def initConstantSpline (s : Spline K D) (lo hi : K) (numSegments : Nat) (c : Fin D → K) :
    Out (Spline K D) :=
  if ¬ lo < hi then .raise
  else if numSegments < 1 then .raise
  else if D < 1 then .raise
  else
    let dt := (hi - lo) / numSegments
    setKnotsAndCoefficients s
      (linSpaced (numKnotsRequired s.order numSegments) (lo - ((s.order : K) - 1) * dt)
        (hi + ((s.order : K) - 1) * dt))
      (List.replicate (numCoefficientsRequired s.order numSegments) c)

end Kalibr.Fit
