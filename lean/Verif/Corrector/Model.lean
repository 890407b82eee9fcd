import Verif.Common
import Verif.Tactics
import Mathlib.Algebra.Order.Field.Basic

/-!
# Model of `sm::timing::TimestampCorrector`

Source: `/repo/Schweizer-Messer/sm_timing/include/sm_timing/implementation/TimestampCorrector.hpp`
(line numbers below) and `.../sm_timing/TimestampCorrector.hpp`.

The time type is an arbitrary linearly ordered field `K` (for `double`: exact arithmetic; integral
instantiations are not modelled).  The debug-only assertions (51-56) are not modelled.
-/

namespace Kalibr.Corrector

/-- `Point` (header, class Point): remote time `x`, local time `y`. -/
structure Pt (K : Type) where
  x : K
  y : K
  deriving DecidableEq

/-- State of a corrector: `_convexHull` **with the newest point first**, `_midpointSegmentIndex`. -/
structure Corr (K : Type) where
  hull : List (Pt K)
  mid : Nat

variable {K : Type} [Field K] [LinearOrder K]

/-- Constructor (6-10). -/
def Corr.init : Corr K := ⟨[], 0⟩

/-- `_convexHull[i]` (oldest point has index 0). -/
def Corr.at? (c : Corr K) (i : Nat) : Option (Pt K) := c.hull.reverse[i]?

/-- `isAboveLine` (121-130). -/
def isAboveLine (l1 l2 p : Pt K) : Bool :=
  decide (0 ≤ (l2.x - l1.x) * (p.y - l1.y) - (l2.y - l1.y) * (p.x - l1.x))

/-- `isAboveTopLine` (106-119). -/
def isAboveTopLine (h : List (Pt K)) (p : Pt K) : Bool :=
  match h with
  | a :: b :: _ => isAboveLine b a p
  | _ => true

/-- The popping loop (35-38). -/
def popLoop (p : Pt K) : List (Pt K) → List (Pt K)
  | a :: b :: r => if isAboveLine b p a then popLoop p (b :: r) else a :: b :: r
  | h => h

/-- `getLocalTime` (92-104): undefined when an index is outside the hull. -/
def getLocalTime (c : Corr K) (remote : K) : Out K :=
  if c.hull.length < 2 then .raise
  else
    match c.at? c.mid, c.at? (c.mid + 1) with
    | some l1, some l2 => .ok (l1.y + (remote - l1.x) * (l2.y - l1.y) / (l2.x - l1.x))
    | _, _ => .ub

/-- `getSlope` (68-78). -/
def getSlope (c : Corr K) : Out K :=
  if c.hull.length < 2 then .raise
  else
    match c.at? c.mid, c.at? (c.mid + 1) with
    | some l1, some l2 => .ok ((l2.y - l1.y) / (l2.x - l1.x))
    | _, _ => .ub

/-- `getOffset` (80-89). -/
def getOffset (c : Corr K) : Out K :=
  if c.hull.length < 2 then .raise
  else
    match c.at? c.mid, c.at? (c.mid + 1) with
    | some l1, some l2 => .ok (l1.y + (-l1.x) * (l2.y - l1.y) / (l2.x - l1.x))
    | _, _ => .ub

/-- `std::lower_bound(begin, end, t) - begin` by remote time (49): first point not before `t`. -/
def lowerBound (h : List (Pt K)) (t : K) : Nat := h.findIdx fun q => !decide (q.x < t)

/-- `lbit - begin() - 1` stored in a `size_t` (50): wraps around at 0. -/
def predSize (n : Nat) : Nat := if n = 0 then 2 ^ 64 - 1 else n - 1

/-- The hull after pushing the new point (29-42). -/
def pushHull (h : List (Pt K)) (p : Pt K) : List (Pt K) :=
  p :: (if !isAboveTopLine h p then popLoop p h else h)

/-- The test at entry (24-27): does the remote time fail to be later than the last hull point? -/
def wentBackwards (h : List (Pt K)) (remote : K) : Bool :=
  match h with
  | [] => false
  | a :: _ => !decide (a.x < remote)

/-- `correctTimestamp` (19-66): the outcome and the state left behind. -/
def correctTimestamp (c : Corr K) (remote loc : K) : Out K × Corr K :=
  if wentBackwards c.hull remote then (.raise, c)
  else
    let h := pushHull c.hull ⟨remote, loc⟩
    if 3 ≤ h.length then
      match h.reverse[0]? with
      | none => (.ub, ⟨h, c.mid⟩)
      | some h0 =>
        let midpoint := (h0.x + remote) / 2
        let c' : Corr K := ⟨h, predSize (lowerBound h.reverse midpoint)⟩
        (getLocalTime c' remote, c')
    else (.ok loc, ⟨h, c.mid⟩)

/-- The state after a sequence of calls (exceptions are caught by the caller). -/
def run : List (Pt K) → Corr K :=
  List.foldl (fun c s => (correctTimestamp c s.x s.y).2) Corr.init

end Kalibr.Corrector
