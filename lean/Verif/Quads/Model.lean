import Mathlib.Analysis.SpecialFunctions.Complex.Arg
import Mathlib.Data.List.GetD
import Verif.Tactics
import Verif.Target.Model

/-!
# Model of the search for quadrilaterals in the tag detector

Sources, below `/repo/aslam_offline_calibration/aslam_apriltag2`: `src/TagDetector.cc` (Detector),
`src/Quad.cc` (Quad), `src/GLine2D.cc` (Line), `src/GLineSegment2D.cc` (LineSegment),
`src/TagDetection.cc` (Detection), `include/aslam_apriltag2/MathUtil.h` (MathUtil),
`include/aslam_apriltag2/Gridder.h` (Gridder).

`float` values are exact reals; conversions to `int` do not overflow.  Pointers to segments are their
places in the list of segments.
-/

namespace Kalibr.Quads

open Kalibr.Target (P2)

/-- `(int) x`: towards zero. -/
noncomputable def toInt (x : ℝ) : ℤ := if 0 ≤ x then ⌊x⌋ else ⌈x⌉

/-- MathUtil 25-29: `distance2D`. -/
noncomputable def distance2D (p q : P2) : ℝ := √((p.1 - q.1) * (p.1 - q.1) + (p.2 - q.2) * (p.2 - q.2))

/-- MathUtil 32-40: `mod2pi`. -/
noncomputable def mod2pi (v : ℝ) : ℝ :=
  let r := |v| - toInt (|v| * (1 / (2 * Real.pi)) + 1 / 2) * (2 * Real.pi)
  if v < 0 then -r else r

/-- `std::atan2(y, x)`. -/
noncomputable def atan2 (y x : ℝ) : ℝ := Complex.arg ⟨x, y⟩

/-! ## Lines -/

/-- `GLine2D`: direction and a point. -/
structure Line where
  dx : ℝ
  dy : ℝ
  p : P2

/-- Line 14-15: the line through two points. -/
def Line.through (p q : P2) : Line := ⟨q.1 - p.1, q.2 - p.2, p⟩

/-- Line 27-52: `intersectionWith`; `(-1, 0)` for parallel lines. -/
noncomputable def Line.intersectionWith (a b : Line) : P2 :=
  let m00 := a.dx
  let m01 := -b.dx
  let m10 := a.dy
  let m11 := -b.dy
  let det := m00 * m11 - m01 * m10
  if |det| < 1 / 10 ^ 10 then (-1, 0)
  else
    let x00 := m11 / det * (b.p.1 - a.p.1) + -m01 / det * (b.p.2 - a.p.2)
    (a.dx * x00 + a.p.1, a.dy * x00 + a.p.2)

/-- `XYWeight`. -/
structure XYW where
  x : ℝ
  y : ℝ
  w : ℝ

/-- Line 54-88: `lsqFitXYW`. -/
noncomputable def Line.lsqFit (l : List XYW) : Line :=
  let mX := (l.map fun s => s.x * s.w).sum
  let mY := (l.map fun s => s.y * s.w).sum
  let mXX := (l.map fun s => s.x * s.x * s.w).sum
  let mYY := (l.map fun s => s.y * s.y * s.w).sum
  let mXY := (l.map fun s => s.x * s.y * s.w).sum
  let n := (l.map fun s => s.w).sum
  let Cxx := mXX / n - mX / n * (mX / n)
  let Cyy := mYY / n - mY / n * (mY / n)
  let Cxy := mXY / n - mX / n * (mY / n)
  let phi := 1 / 2 * atan2 (-2 * Cxy) (Cyy - Cxx)
  ⟨-Real.sin phi, Real.cos phi, (mX / n, mY / n)⟩

/-- Line 90-97: `normalizeSlope`. -/
noncomputable def Line.normalizeSlope (a : Line) : Line :=
  let mag := √(a.dx * a.dx + a.dy * a.dy)
  ⟨a.dx / mag, a.dy / mag, a.p⟩

/-- Line 17-20: `getLineCoordinate`. -/
noncomputable def Line.coordinate (a : Line) (q : P2) : ℝ :=
  let b := a.normalizeSlope
  q.1 * b.dx + q.2 * b.dy

/-- Line 22-25, 99-108: `getPointOfCoordinate` with `normalizeP`. -/
noncomputable def Line.pointOf (a : Line) (c : ℝ) : P2 :=
  let b := a.normalizeSlope
  let dot := -b.dy * b.p.1 + b.dx * b.p.2
  (-b.dy * dot + c * b.dx, b.dx * dot + c * b.dy)

/-- LineSegment 9-24: `lsqFitXYW`, the two ends of the segment; `none` without points, where the ends
are infinite. -/
noncomputable def fitSegment (l : List XYW) : Option (P2 × P2) :=
  let g := Line.lsqFit l
  match (l.map fun s => g.coordinate (s.x, s.y)) with
  | [] => none
  | c :: cs => some (g.pointOf (cs.foldl min c), g.pointOf (cs.foldl max c))

/-! ## Segments -/

/-- `Segment`. -/
structure Seg where
  x0 : ℝ
  y0 : ℝ
  x1 : ℝ
  y1 : ℝ
  theta : ℝ
  length : ℝ

/-- Detector 270-321: the segment from `p0` to `p1` with its direction chosen by the votes of the
gradients, given as pairs of angle and magnitude. -/
noncomputable def orient (p0 p1 : P2) (grads : List (ℝ × ℝ)) : Seg :=
  let length := distance2D p0 p1
  let dy := p1.2 - p0.2
  let dx := p1.1 - p0.1
  let theta0 := atan2 dy dx
  let noflip := (grads.map fun g => if mod2pi (g.1 - theta0) < 0 then g.2 else 0).sum
  let flip := (grads.map fun g => if mod2pi (g.1 - theta0) < 0 then 0 else g.2).sum
  let theta := if flip > noflip then theta0 + Real.pi else theta0
  let dot := dx * Real.cos theta + dy * Real.sin theta
  if dot > 0 then ⟨p1.1, p1.2, p0.1, p0.2, theta, length⟩ else ⟨p0.1, p0.2, p1.1, p1.2, theta, length⟩

/-! ## The table of positions -/

/-- `Gridder`: cells of `pp` pixels from the origin `(x0, y0)`. -/
structure Gridder (α : Type) where
  x0 : ℝ
  y0 : ℝ
  pp : ℝ
  width : ℤ
  height : ℤ
  /-- The objects of the cell in column `ix` and row `iy`, the last added first. -/
  cells : ℤ → ℤ → List α

/-- Gridder 41-48, 56-58. -/
noncomputable def Gridder.new (α : Type) (x0 y0 x1 y1 pp : ℝ) : Gridder α :=
  ⟨x0, y0, pp, toInt ((x1 - x0) / pp + 1), toInt ((y1 - y0) / pp + 1), fun _ _ => []⟩

/-- Gridder 68-79: `add`. -/
noncomputable def Gridder.add {α : Type} (g : Gridder α) (x y : ℝ) (a : α) : Gridder α :=
  let ix := toInt ((x - g.x0) / g.pp)
  let iy := toInt ((y - g.y0) / g.pp)
  if ix ≥ 0 ∧ iy ≥ 0 ∧ ix < g.width ∧ iy < g.height then
    { g with cells := fun i j => if i = ix ∧ j = iy then a :: g.cells i j else g.cells i j }
  else g

/-- The limits of a search, `ix0`, `ix1`, `iy0`, `iy1`. -/
structure Window where
  ix0 : ℤ
  ix1 : ℤ
  iy0 : ℤ
  iy1 : ℤ

/-- Gridder 139-158: `iteratorInit`, the limits. -/
noncomputable def Gridder.window {α : Type} (g : Gridder α) (x y range : ℝ) : Window :=
  ⟨min (g.width - 1) (max 0 (toInt ((x - range - g.x0) / g.pp))),
   min (g.width - 1) (max 0 (toInt ((x + range - g.x0) / g.pp))),
   min (g.height - 1) (max 0 (toInt ((y - range - g.y0) / g.pp))),
   min (g.height - 1) (max 0 (toInt ((y + range - g.y0) / g.pp)))⟩

/-- The state of the iterator: the cell and the rest of its list; the list is empty where the pointer
`c` is null. -/
structure Iter (α : Type) where
  ix : ℤ
  iy : ℤ
  c : List α

/-- Gridder 120-134: the loop of `findNext`, bounded by `fuel`; `none` if the bound is reached. -/
def Gridder.seek {α : Type} (g : Gridder α) (w : Window) : ℕ → ℤ → ℤ → Option (Iter α)
  | 0, _, _ => none
  | fuel + 1, ix, iy =>
    let iy' := if ix > w.ix1 then iy + 1 else iy
    let ix' := if ix > w.ix1 then w.ix0 else ix
    if iy' > w.iy1 then some ⟨ix', iy', []⟩
    else if g.cells ix' iy' ≠ [] then some ⟨ix', iy', g.cells ix' iy'⟩
    else g.seek w fuel (ix' + 1) iy'

/-- Gridder 113-134: `findNext`. -/
def Gridder.findNext {α : Type} (g : Gridder α) (w : Window) (fuel : ℕ) (it : Iter α) : Option (Iter α) :=
  match it.c with
  | _ :: c :: cs => some { it with c := c :: cs }
  | _ => g.seek w fuel (it.ix + 1) it.iy

/-- Gridder 96-111 and the loop of the caller (Detector 353): what `hasNext` and `next` deliver, with
at most `fuel` rounds; `none` if the loop does not end within them. -/
def Gridder.drain {α : Type} (g : Gridder α) (w : Window) (cells : ℕ) : ℕ → Iter α → Option (List α)
  | 0, _ => none
  | fuel + 1, it =>
    match (if it.c = [] then g.findNext w cells it else some it) with
    | none => none
    | some it' =>
      match it'.c with
      | [] => some []
      | a :: _ => (g.findNext w cells it').bind fun it'' => (g.drain w cells fuel it'').map (a :: ·)

/-- Gridder 160-164, 176: `find`, all that is delivered. -/
noncomputable def Gridder.find {α : Type} (g : Gridder α) (x y range : ℝ) (cells fuel : ℕ) :
    Option (List α) :=
  let w := g.window x y range
  g.drain w cells fuel ⟨w.ix0, w.iy0, g.cells w.ix0 w.iy0⟩

/-! ## Successors and loops -/

/-- Detector 355-386: the tests that make `child` a successor of `parent`. -/
noncomputable def isChild (parent child : Seg) : Bool :=
  let parentLine := Line.through (parent.x0, parent.y0) (parent.x1, parent.y1)
  let childLine := Line.through (child.x0, child.y0) (child.x1, child.y1)
  let p := parentLine.intersectionWith childLine
  if mod2pi (child.theta - parent.theta) > 0 then false
  else if p.1 = -1 then false
  else if max (distance2D p (parent.x1, parent.y1)) (distance2D p (child.x0, child.y0)) > parent.length
    then false
  else true

/-- Detector 342-349: the table of positions with all `n` segments, by their first points. -/
noncomputable def table (seg : ℕ → Seg) (n : ℕ) (width height : ℝ) : Gridder ℕ :=
  (List.range n).foldl (fun g i => g.add (seg i).x0 (seg i).y0 i) (Gridder.new ℕ 0 0 width height 10)

/-- Detector 352-387: the successors of segment `i`; `none` if the search does not end within the bounds. -/
noncomputable def successors (seg : ℕ → Seg) (n : ℕ) (width height : ℝ) (cells fuel : ℕ) (i : ℕ) :
    Option (List ℕ) :=
  ((table seg n width height).find (seg i).x1 (seg i).y1 (1 / 2 * (seg i).length) cells fuel).map fun l =>
    l.filter fun c => isChild (seg i) (seg c)

/-- Quad 50-159: the paths that `search` examines at terminal depth and finds closed.  `first` is
`path[0]`, `path` the segments so far, `k` what is missing to depth four. -/
noncomputable def search (children : ℕ → List ℕ) (theta : ℕ → ℝ) (first : ℕ) :
    ℕ → ℕ → List ℕ → List (List ℕ)
  | 0, parent, path => if parent = first then [path] else []
  | k + 1, _parent, path => ((children _parent).filter fun c => ¬ theta c > theta first).flatMap fun c =>
      search children theta first k c (path ++ [c])

/-- Detector 391-398: the search from every segment. -/
noncomputable def loops (children : ℕ → List ℕ) (theta : ℕ → ℝ) (n : ℕ) : List (List ℕ) :=
  (List.range n).flatMap fun i => search children theta i 4 i [i]

/-- Quad 66-82: the corners of a closed path, as intersections of consecutive segments. -/
noncomputable def corners (seg : ℕ → Seg) (path : List ℕ) : Fin 4 → P2 := fun i =>
  let a := seg (path.getD i 0)
  let b := seg (path.getD (i + 1) 0)
  (Line.through (a.x0, a.y0) (a.x1, a.y1)).intersectionWith (Line.through (b.x0, b.y0) (b.x1, b.y1))

/-- Quad 76, 127: `calculatedPerimeter`. -/
noncomputable def perimeter (seg : ℕ → Seg) (path : List ℕ) : ℝ :=
  (List.range 4).foldl (fun s i => s + (seg (path.getD i 0)).length) 0

/-- Quad 87-98: `ttheta`, the sum of the turns. -/
noncomputable def turning (p : Fin 4 → P2) : ℝ :=
  let t0 := atan2 ((p 1).2 - (p 0).2) ((p 1).1 - (p 0).1)
  let t1 := atan2 ((p 2).2 - (p 1).2) ((p 2).1 - (p 1).1)
  let t2 := atan2 ((p 3).2 - (p 2).2) ((p 3).1 - (p 2).1)
  let t3 := atan2 ((p 0).2 - (p 3).2) ((p 0).1 - (p 3).1)
  mod2pi (t1 - t0) + mod2pi (t2 - t1) + mod2pi (t3 - t2) + mod2pi (t0 - t3)

/-- Quad 104-122: the sizes are acceptable. -/
noncomputable def sizesOk (p : Fin 4 → P2) : Bool :=
  let d0 := distance2D (p 0) (p 1)
  let d1 := distance2D (p 1) (p 2)
  let d2 := distance2D (p 2) (p 3)
  let d3 := distance2D (p 3) (p 0)
  let d4 := distance2D (p 0) (p 2)
  let d5 := distance2D (p 1) (p 3)
  let dmax := max (max d0 d1) (max d2 d3)
  let dmin := min (min d0 d1) (min d2 d3)
  !(decide (d0 < 6 ∨ d1 < 6 ∨ d2 < 6 ∨ d3 < 6 ∨ d4 < 6 ∨ d5 < 6) || decide (dmax > dmin * 32))

/-- Quad 64-129: the quadrilateral of a closed path, if it is accepted: corners and perimeter. -/
noncomputable def quadOf (seg : ℕ → Seg) (path : List ℕ) : Option ((Fin 4 → P2) × ℝ) :=
  let p := corners seg path
  if (p 0).1 = -1 ∨ (p 1).1 = -1 ∨ (p 2).1 = -1 ∨ (p 3).1 = -1 then none
  else if turning p < -7 ∨ turning p > -5 then none
  else if sizesOk p then some (p, perimeter seg path) else none

/-! ## Detections of the same tag -/

/-- The part of `TagDetection` that the last step uses. -/
structure Found where
  id : ℤ
  hamming : ℤ
  p : Fin 4 → P2
  cxy : P2
  perimeter : ℝ

/-- Detection 59-79: `overlapsTooMuch`. -/
noncomputable def overlapsTooMuch (a b : Found) : Prop :=
  let radius := (distance2D (a.p 0) (a.p 1) + distance2D (a.p 1) (a.p 2) + distance2D (a.p 2) (a.p 3)
    + distance2D (a.p 3) (a.p 0) + distance2D (b.p 0) (b.p 1) + distance2D (b.p 1) (b.p 2)
    + distance2D (b.p 2) (b.p 3) + distance2D (b.p 3) (b.p 0)) / 16
  distance2D a.cxy b.cxy < radius

open Classical in
/-- Detector 557-573: the inner loop, for one detection `t` and the detections kept so far.  Every kept
detection is compared with `t` as it was before the loop, since the loop writes only the place it looks
at. -/
noncomputable def absorb (good : List Found) (t : Found) : List Found :=
  let good' := good.map fun o =>
    if t.id ≠ o.id ∨ ¬ overlapsTooMuch t o then o
    else if t.hamming > o.hamming then o
    else if t.hamming < o.hamming ∨ t.perimeter > o.perimeter then t else o
  if ∃ o ∈ good, ¬ (t.id ≠ o.id ∨ ¬ overlapsTooMuch t o) then good' else good' ++ [t]

/-- Detector 545-581: step nine. -/
noncomputable def resolve (ds : List Found) : List Found := ds.foldl absorb []

end Kalibr.Quads
