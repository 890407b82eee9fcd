import Verif.Common
import Verif.Tactics
import Mathlib.Algebra.BigOperators.Group.Finset.Basic
import Mathlib.Algebra.Order.Field.Basic
import Mathlib.Algebra.Order.Group.Abs

/-!
# Model of `aslam_bsplines::BSpline`

Source: `/repo/aslam_nonparametric_estimation/aslam_bsplines/src/BSpline.cpp` (line numbers below
refer to this file).

`double` is an arbitrary linearly ordered field `K` (exact arithmetic); the calculus theorems take
`K = ℝ`.  An Eigen matrix is a function of two indices (only the indices below its dimensions
matter); the coefficient matrix is the list of its columns, each a vector `Fin D → K`.  `int`
indices are natural numbers; where the code subtracts, the model checks the sign.
Reading outside a vector or matrix is undefined behaviour.
-/

namespace Kalibr.BSpline

variable {K : Type} [Field K] [LinearOrder K] [IsStrictOrderedRing K] {D : Nat}

/-- State of a spline: `splineOrder_`, `knots_`, columns of `coefficients_`, `basisMatrices_`. -/
structure Spline (K : Type) (D : Nat) where
  order : Nat
  knots : List K
  coeffs : List (Fin D → K)
  basis : List (Nat → Nat → K)

/-- Constructor (15-19): the order must be at least 2. -/
def Spline.new (order : Nat) : Out (Spline K D) :=
  if order < 2 then .raise else .ok ⟨order, [], [], []⟩

/-- `knots_[i]` at an index already known to be in range. -/
def knotAt (τ : List K) (i : Nat) : K := τ.getD i 0

/-- `numValidTimeSegments(numKnots)` (198-202): `max(numKnots - 2*order + 1, 0)`. -/
def numValidTimeSegments (order numKnots : Nat) : Nat := (numKnots + 1) - 2 * order

/-- `numCoefficientsRequired` (214-217). -/
def numCoefficientsRequired (order numTimeSegments : Nat) : Nat := numTimeSegments + order - 1

/-- `numKnotsRequired` (219-222). -/
def numKnotsRequired (order numTimeSegments : Nat) : Nat :=
  numCoefficientsRequired order numTimeSegments + order

/-- `minimumKnotsRequired` (209-212). -/
def minimumKnotsRequired (order : Nat) : Nat := numKnotsRequired order 1

/-- `d_0(k, i, j)` (123-135), on knots given as a function. -/
def d0 (τ : Nat → K) (k i j : Nat) : K :=
  let denom := τ (j + k - 1) - τ j
  if denom ≤ 0 then 0 else (τ i - τ j) / denom

/-- `d_1(k, i, j)` (137-149). -/
def d1 (τ : Nat → K) (k i j : Nat) : K :=
  let denom := τ (j + k - 1) - τ j
  if denom ≤ 0 then 0 else (τ (i + 1) - τ i) / denom

/-- The matrix `A` of the recursion (98-105); `j = i - k + 2 + idx`. -/
def matA (τ : Nat → K) (k i idx c : Nat) : K :=
  if c = idx then 1 - d0 τ k i (i + 2 + idx - k)
  else if c = idx + 1 then d0 τ k i (i + 2 + idx - k) else 0

/-- The matrix `B` of the recursion (107-114). -/
def matB (τ : Nat → K) (k i idx c : Nat) : K :=
  if c = idx then - d1 τ k i (i + 2 + idx - k)
  else if c = idx + 1 then d1 τ k i (i + 2 + idx - k) else 0

/-- `M(k, i)` (70-121): `M_k = [M; 0] A + [0; M] B`. -/
def basisM (τ : Nat → K) : Nat → Nat → (Nat → Nat → K)
  | 0, _ => fun _ _ => 0
  | 1, _ => fun _ _ => 1
  | k + 2, i => fun r c =>
      (∑ idx ∈ Finset.range (k + 1),
          (if r < k + 1 then basisM τ (k + 1) i r idx else 0) * matA τ (k + 2) i idx c) +
      (∑ idx ∈ Finset.range (k + 1),
          (if 1 ≤ r then basisM τ (k + 1) i (r - 1) idx else 0) * matB τ (k + 2) i idx c)

/-- `initializeBasisMatrices` (58-67). -/
def initBasis (order : Nat) (knots : List K) : List (Nat → Nat → K) :=
  (List.range (numValidTimeSegments order knots.length)).map
    fun i => basisM (knotAt knots) order (i + order - 1)

/-- The checking loop of `verifyKnotSequence` over the listed indices (190-195). -/
def verifyLoop (new : List K) : List Nat → Out Unit
  | [] => .ok ()
  | i :: is =>
    match new[i - 1]?, new[i]? with
    | some a, some b => if a ≤ b then verifyLoop new is else .raise
    | _, _ => .ub

/-- `verifyKnotSequence(knots)` (183-196).  The loop bound is the size of the *old* knot vector
`knots_`, as in the source. -/
def verifyKnotSequence (s : Spline K D) (knots : List K) : Out Unit :=
  if knots.length < minimumKnotsRequired s.order then .raise
  else verifyLoop knots (List.range' 1 (s.knots.length - 1))

/-- `setKnotsAndCoefficients` (36-56). -/
def setKnotsAndCoefficients (s : Spline K D) (knots : List K) (coeffs : List (Fin D → K)) :
    Out (Spline K D) := do
  verifyKnotSequence s knots
  if numCoefficientsRequired s.order (numValidTimeSegments s.order knots.length) ≠ coeffs.length then
    .raise
  else
    return { s with knots := knots, coeffs := coeffs, basis := initBasis s.order knots }

/-- `t_min()` (225-229). -/
def tMin (s : Spline K D) : Out K :=
  if s.knots.length < minimumKnotsRequired s.order then .raise
  else .ok (knotAt s.knots (s.order - 1))

/-- `t_max()` (231-235). -/
def tMax (s : Spline K D) : Out K :=
  if s.knots.length < minimumKnotsRequired s.order then .raise
  else .ok (knotAt s.knots (s.knots.length - s.order))

/-- The tolerance `1e-10` of `computeTIndex` (242). -/
def snapTol : K := 1 / 10000000000

/-- `std::upper_bound(knots_.begin(), knots_.end(), t) - knots_.begin()`: the first position whose
knot exceeds `t` (the length if there is none).  For a sorted sequence this is what the standard
guarantees; the binary search itself is not modelled. -/
def upperBound (τ : List K) (t : K) : Nat := τ.findIdx (fun x => decide (t < x))

/-- `computeTIndex` (237-264): width of the knot segment and its index. -/
def computeTIndex (s : Spline K D) (t : K) : Out (K × Nat) := do
  let lo ← tMin s
  if t < lo then .raise
  else
    let hi ← tMax s
    let t := if |hi - t| < snapTol then hi else t
    if hi < t then .raise
    else
      let i := if t = hi then s.knots.length - s.order else upperBound s.knots t
      if i = 0 ∨ s.knots.length ≤ i then .ub
      else .ok (knotAt s.knots i - knotAt s.knots (i - 1), i - 1)

/-- `computeUAndTIndex` (266-287); the original `t` is used, not the snapped one. -/
def computeUAndTIndex (s : Spline K D) (t : K) : Out (K × Nat) := do
  let p ← computeTIndex s t
  if p.1 ≤ 0 then return (0, p.2)
  else return ((t - knotAt s.knots p.2) / p.1, p.2)

/-- `dmul` (289-297).  Overflow of `int` for large orders is not modelled. -/
def dmul (i : Nat) : Nat → Nat
  | 0 => 1
  | 1 => i
  | d + 2 => i * dmul (i - 1) (d + 1)

/-- `computeU` (300-318): entry `r` of the vector; the running product `uu` after `r - d` steps is
`uval ^ (r - d)`. -/
def computeU (τ : Nat → K) (order : Nat) (uval : K) (seg d r : Nat) : K :=
  let dt := τ (seg + 1) - τ seg
  let mult : K := if 0 < dt then 1 / dt ^ d else 0
  if d ≤ r ∧ r < order then mult * uval ^ (r - d) * (dmul r d : K) else 0

/-- `basisMatrices_[bidx].transpose() * u`, entry `c` (the local basis weights). -/
def weights (order : Nat) (M : Nat → Nat → K) (u : Nat → K) (c : Nat) : K :=
  ∑ r ∈ Finset.range order, M r c * u r

/-- `coefficients_.block(0, bidx, rows, order) * w`; `none` when the block leaves the matrix. -/
def combine (order : Nat) (coeffs : List (Fin D → K)) (bidx : Nat) (w : Nat → K) :
    Option (Fin D → K) :=
  if bidx + order ≤ coeffs.length then
    some fun d => ∑ c ∈ Finset.range order, (coeffs.getD (bidx + c) 0) d * w c
  else none

/-- The local window for time `t`: normalised time, segment (knot) index, and
`bidx = index - order + 1` (334-338). -/
def locate (s : Spline K D) (t : K) : Out (K × Nat × Nat) := do
  let ui ← computeUAndTIndex s t
  if ui.2 + 1 < s.order then .ub else return (ui.1, ui.2, ui.2 + 1 - s.order)

/-- The basis weights at time `t` for derivative order `d`: `getLocalBiVector` for `d = 0`
(1405-1420), and the vector `Bt_u` of `evalDAndJacobian` (366). -/
def localBi (s : Spline K D) (t : K) (d : Nat) : Out (Nat → K) := do
  let l ← locate s t
  match s.basis[l.2.2]? with
  | none => .ub
  | some M => return weights s.order M (computeU (knotAt s.knots) s.order l.1 l.2.1 d)

/-- `evalD(t, derivativeOrder)` (331-349); `eval(t) = evalD(t, 0)` (320-323). -/
def evalD (s : Spline K D) (t : K) (d : Nat) : Out (Fin D → K) := do
  let l ← locate s t
  let w ← localBi s t d
  match combine s.order s.coeffs l.2.2 w with
  | none => .ub
  | some v => return v

/-- `removeCurveSegment` (740-747): erases the first knot and the first coefficient column; the
basis matrices are left as they are, as in the source. -/
def removeCurveSegment (s : Spline K D) : Spline K D :=
  if s.knots.length > 0 ∧ s.coeffs.length > 0 then
    { s with knots := s.knots.tail, coeffs := s.coeffs.tail }
  else s

/-- `timeInterval(i)` (544-549). -/
def timeInterval (s : Spline K D) (i : Nat) : Out (K × K) :=
  if s.knots.length < minimumKnotsRequired s.order then .raise
  else if numValidTimeSegments s.order s.knots.length ≤ i then .raise
  else .ok (knotAt s.knots (s.order + i - 1), knotAt s.knots (s.order + i))

/-- The tolerance `1e-16` of `evalIntegral` (1319, 1348). -/
def remTol : K := 1 / 10000000000000000

/-- The integral of the curve over the first fraction `ρ` of knot segment `seg` of width `width`:
`width * coefficients_.block(0,bidx,rows,order) * basisMatrices_[bidx].transpose() * v` with
`v(i) = ρ^(i+1) / (i+1)` (1321-1331, 1336-1345, 1350-1361). -/
def integralPiece (s : Spline K D) (seg : Nat) (width ρ : K) : Out (Fin D → K) :=
  if seg + 1 < s.order then .ub
  else
    match s.basis[seg + 1 - s.order]? with
    | none => .ub
    | some M =>
      match combine s.order s.coeffs (seg + 1 - s.order)
          (weights s.order M fun r => ρ ^ (r + 1) / ((r : K) + 1)) with
      | none => .ub
      | some v => .ok fun e => width * v e

/-- The loop over the central segments (1340-1345). -/
def integralMid (s : Spline K D) : List Nat → Out (Fin D → K)
  | [] => .ok 0
  | seg :: rest => do
    let a ← integralPiece s seg (knotAt s.knots (seg + 1) - knotAt s.knots seg) 1
    let b ← integralMid s rest
    return a + b

/-- A remainder term (1318-1332 and 1347-1362): the part of the located segment before `t`, dropped
when it or the segment is not larger than `1e-16`. -/
def integralRem (s : Spline K D) (t : K) (u : K × Nat) : Out (Fin D → K) :=
  if remTol < t - knotAt s.knots u.2 ∧ remTol < u.1 then
    integralPiece s u.2 u.1 ((t - knotAt s.knots u.2) / u.1)
  else .ok 0

/-- The body of `evalIntegral` for `t1 ≤ t2` (1311-1365). -/
def evalIntegralLe (s : Spline K D) (t1 t2 : K) : Out (Fin D → K) := do
  let u1 ← computeTIndex s t1
  let u2 ← computeTIndex s t2
  let lhs ← integralRem s t1 u1
  let mid ← integralMid s (List.range' u1.2 (u2.2 - u1.2))
  let rhs ← integralRem s t2 u2
  return -lhs + mid + rhs

/-- `evalIntegral(t1, t2)` (1304-1366). -/
def evalIntegral (s : Spline K D) (t1 t2 : K) : Out (Fin D → K) :=
  if t2 < t1 then do
    let v ← evalIntegralLe s t2 t1
    return -v
  else evalIntegralLe s t1 t2

end Kalibr.BSpline
