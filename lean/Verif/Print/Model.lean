import Mathlib.Analysis.SpecialFunctions.Trigonometric.Basic
import Mathlib.LinearAlgebra.Matrix.NonsingularInverse
import Verif.Tag.Model
import Verif.Target.Model

/-!
# Model of the printed targets and of the reading of one tag

Sources, below `/repo/aslam_offline_calibration`:
`kalibr/python/kalibr_create_target_pdf` (Script),
`aslam_apriltag2/src/TagDetector.cc` (Detector), `Quad.cc` (Quad), `GrayModel.cc` (GrayModel).

The drawing is the list of the black rectangles on the canvas, in centimetres.  The axes, the caption
and the printed messages are left out.  Coordinates and grey values are exact reals.  The search of the
quadrilaterals in the image is not modelled: a quadrilateral is given.  `INTERPOLATE` and `STABLE_H` are
defined (`Homography33.h:12-14`).
-/

namespace Kalibr.Print

open Kalibr.Target (P2 Det)

/-! ## The script that draws the targets -/

/-- `path.rect(x, y, w, h)` filled with black. -/
structure Rect where
  x : ℝ
  y : ℝ
  w : ℝ
  h : ℝ

/-- The points of a rectangle. -/
def Rect.Covers (r : Rect) (p : P2) : Prop :=
  r.x ≤ p.1 ∧ p.1 ≤ r.x + r.w ∧ r.y ≤ p.2 ∧ p.2 ≤ r.y + r.h

/-- The points that are black on the paper. -/
def Black (rs : List Rect) (p : P2) : Prop := ∃ r ∈ rs, r.Covers p

/-- Script 59-63: `codeMatrix`, before the rotation. -/
def codeMatrix (d code : ℕ) : ℕ → ℕ → Bool := fun i j => !code.testBit (d * i + j)

/-- `numpy.rot90` of a `d` times `d` matrix: a quarter turn counterclockwise. -/
def rot90 (d : ℕ) (m : ℕ → ℕ → Bool) : ℕ → ℕ → Bool := fun i j => m j (d - 1 - i)

/-- `numpy.rot90(m, k)` for `k ≥ 0`. -/
def rot90n (d : ℕ) (m : ℕ → ℕ → Bool) : ℕ → ℕ → ℕ → Bool
  | 0 => m
  | k + 1 => rot90 d (rot90n d m k)

/-- Script 52-55: the border. -/
noncomputable def borderRects (x y size b : ℝ) : List Rect :=
  [⟨x, y, size, b⟩, ⟨x, y + size - b, size, b⟩, ⟨x + size - b, y, b, size⟩, ⟨x, y, b, size⟩]

/-- Script 69-72: the cells. -/
noncomputable def cellRects (d border : ℕ) (m : ℕ → ℕ → Bool) (x y bit : ℝ) : List Rect :=
  (List.range d).flatMap fun i : ℕ => (List.range d).filterMap fun j : ℕ =>
    if m i j then
      some ⟨x + ((j : ℝ) + border) * bit, y + (((border : ℝ) - 1) + d - i) * bit, bit, bit⟩
    else none

/-- Script 75-86: the squares that make the corners symmetric. -/
noncomputable def cornerRects (x y size q : ℝ) : List Rect :=
  [⟨x - q, y - q, q, q⟩, ⟨x + size, y - q, q, q⟩, ⟨x + size, y + size, q, q⟩, ⟨x - q, y + size, q, q⟩]

/-- Script 36-86 `generateAprilTag`, given the code; `sqrtBits` is `d`. -/
noncomputable def tagRects (d border rotation code : ℕ) (x y size spacing : ℝ) : List Rect :=
  let bit := size / ((d : ℝ) + border * 2)
  borderRects x y size (border * bit) ++
    cellRects d border (rot90n d (codeMatrix d code) rotation) x y bit ++
    cornerRects x y size (spacing * size)

/-- Script 109-114: one tag.  An identifier without a code only prints a message; the next use of
`tagCode` is then an unbound local variable and ends the program. -/
noncomputable def drawTag (codes : List ℕ) (d cols : ℕ) (size spacing : ℝ) (skip : List ℕ) (y : ℕ)
    (rs : List Rect) (x : ℕ) : Out (List Rect) :=
  let id := cols * y + x
  if id ∈ skip then .ok rs
  else match codes[id]? with
    | none => .raise
    | some code => .ok (rs ++ tagRects d 2 2 code (x * (1 + spacing) * size) (y * (1 + spacing) * size)
        size spacing)

/-- Script 89-114 `generateAprilBoard`.  A spacing outside `[0, 1]` ends the program. -/
noncomputable def boardRects (codes : List ℕ) (d cols rows : ℕ) (tagSize spacing : ℝ)
    (skip : List ℕ) : Out (List Rect) :=
  open Classical in
  if spacing < 0 ∨ spacing > 1 then .raise
  else (List.range rows).foldlM (fun rs y =>
    (List.range cols).foldlM (drawTag codes d cols (tagSize * 100) spacing skip y) rs) []

/-- Script 136-150 `generateCheckerboard`. -/
noncomputable def checkerRects (cols rows : ℕ) (sizeCols sizeRows : ℝ) : List Rect :=
  (List.range (cols + 1)).flatMap fun x : ℕ => (List.range (rows + 1)).filterMap fun y : ℕ =>
    if (x + y + 1) % 2 ≠ 0 then
      some ⟨x * (sizeCols * 100), y * (sizeRows * 100), sizeCols * 100, sizeRows * 100⟩
    else none

/-! ## The detector: reading one quadrilateral -/

/-- `FloatImage`: only the size and the pixels. -/
structure Image where
  width : ℤ
  height : ℤ
  px : ℤ → ℤ → ℝ

/-- `(int) (v + 0.5)` (Detector 441-442): the conversion truncates. -/
noncomputable def toPixel (v : ℝ) : ℤ := if 0 ≤ v + 1 / 2 then ⌊v + 1 / 2⌋ else ⌈v + 1 / 2⌉

/-- Quad 37-47 `interpolate`: bilinear. -/
noncomputable def interpolate (q : Fin 4 → P2) (x y : ℝ) : P2 :=
  let r1 := ((q 0).1 + ((q 1).1 - (q 0).1) * (x + 1) / 2, (q 0).2 + ((q 1).2 - (q 0).2) * (x + 1) / 2)
  let r2 := ((q 3).1 + ((q 2).1 - (q 3).1) * (x + 1) / 2, (q 3).2 + ((q 2).2 - (q 3).2) * (x + 1) / 2)
  (r1.1 + (r2.1 - r1.1) * (y + 1) / 2, r1.2 + (r2.2 - r1.2) * (y + 1) / 2)

/-- Quad 49-51 `interpolate01`. -/
noncomputable def interpolate01 (q : Fin 4 → P2) (x y : ℝ) : P2 := interpolate q (2 * x - 1) (2 * y - 1)

/-- Detector 440-445 and 463-471: the pixel shown at a point of the quadrilateral, `none` outside the
image. -/
noncomputable def sample (img : Image) (q : Fin 4 → P2) (x y : ℝ) : Option ℝ :=
  let p := interpolate01 q x y
  let irx := toPixel p.1
  let iry := toPixel p.2
  if irx < 0 ∨ irx ≥ img.width ∨ iry < 0 ∨ iry ≥ img.height then none else some (img.px irx iry)

/-- GrayModel 17-38: the monomials of the model. -/
noncomputable def basis (x y : ℝ) : Fin 4 → ℝ := ![x, y, x * y, 1]

/-- GrayModel 17-30 and 52-54: the matrix `A`, made symmetric, of observations `(x, y, gray)`. -/
noncomputable def gram (obs : List (ℝ × ℝ × ℝ)) : Matrix (Fin 4) (Fin 4) ℝ :=
  Matrix.of fun i j => (obs.map fun o => basis o.1 o.2.1 i * basis o.1 o.2.1 j).sum

/-- GrayModel 32-35: the vector `b`. -/
noncomputable def rhs (obs : List (ℝ × ℝ × ℝ)) : Fin 4 → ℝ :=
  fun i => (obs.map fun o => basis o.1 o.2.1 i * o.2.2).sum

/-- GrayModel 46-79 `compute`.  `computeInverseAndDetWithCheck` compares the determinant with a small
threshold; here it is compared with zero.  Without observations the model stays zero. -/
noncomputable def fit (obs : List (ℝ × ℝ × ℝ)) : Fin 4 → ℝ :=
  open Classical in
  if 6 ≤ obs.length ∧ (gram obs).det ≠ 0 then (gram obs)⁻¹.mulVec (rhs obs)
  else ![0, 0, 0, rhs obs 3 / obs.length]

/-- GrayModel 41-44 `interpolate`. -/
noncomputable def gray (obs : List (ℝ × ℝ × ℝ)) (x y : ℝ) : ℝ :=
  fit obs 0 * x + fit obs 1 * y + fit obs 2 * x * y + fit obs 3

/-- Detector 446-449: which model a sample belongs to. -/
def ring (dd ix iy : ℤ) : Option Bool :=
  if iy = -1 ∨ iy = dd ∨ ix = -1 ∨ ix = dd then some true
  else if iy = 0 ∨ iy = dd - 1 ∨ ix = 0 ∨ ix = dd - 1 then some false
  else none

/-- Detector 433-453: the observations of the white or of the black model, in the order of the loop. -/
noncomputable def ringObs (dd : ℕ) (img : Image) (q : Fin 4 → P2) (white : Bool) : List (ℝ × ℝ × ℝ) :=
  (List.range (dd + 2)).flatMap fun m : ℕ => (List.range (dd + 2)).filterMap fun n : ℕ =>
    let iy : ℤ := (m : ℤ) - 1
    let ix : ℤ := (n : ℤ) - 1
    let y : ℝ := ((iy : ℝ) + 1 / 2) / dd
    let x : ℝ := ((ix : ℝ) + 1 / 2) / dd
    match sample img q x y with
    | none => none
    | some v => if ring dd ix iy = some white then some (x, y, v) else none

/-- Detector 460-477: one cell; the state is `bad` and `tagCode`, of 64 bits. -/
noncomputable def readCell (border dd : ℕ) (img : Image) (q : Fin 4 → P2) (thr : ℝ → ℝ → ℝ) (iy : ℕ)
    (s : Bool × ℕ) (ix : ℕ) : Bool × ℕ :=
  let y : ℝ := ((border : ℝ) + iy + 1 / 2) / dd
  let x : ℝ := ((border : ℝ) + ix + 1 / 2) / dd
  match sample img q x y with
  | none => (true, s.2)
  | some v => (s.1, (2 * s.2) % 2 ^ 64 + (open Classical in if v > thr x y then 1 else 0))

/-- Detector 430-486: the code of a quadrilateral, `none` when it is bad. -/
noncomputable def readCode (d border : ℕ) (img : Image) (q : Fin 4 → P2) : Option ℕ :=
  let dd := 2 * border + d
  let black := ringObs dd img q false
  let white := ringObs dd img q true
  let thr := fun x y : ℝ => (gray black x y + gray white x y) * (1 / 2)
  let s := (List.range d).reverse.foldl
    (fun s iy => (List.range d).foldl (readCell border dd img q thr iy) s) (false, 0)
  if s.1 then none else some s.2

/-- Detector 494-504: the rotation of the homography applied to a point. -/
noncomputable def rotatePoint (rotation : ℕ) (p : P2) : P2 :=
  let c := Real.cos (rotation * Real.pi / 2)
  let s := Real.sin (rotation * Real.pi / 2)
  (c * p.1 + -s * p.2, s * p.1 + c * p.2)

/-- `MathUtil::distance2D`. -/
noncomputable def dist2 (a b : P2) : ℝ :=
  Real.sqrt ((a.1 - b.1) * (a.1 - b.1) + (a.2 - b.2) * (a.2 - b.2))

/-- Detector 511-519: the first corner nearest to a point.  All distances are below `FLT_MAX`, so the
first corner is always accepted. -/
noncomputable def nearest (q : Fin 4 → P2) (p : P2) : Fin 4 :=
  ([1, 2, 3].foldl (fun (s : Fin 4 × ℝ) i =>
    open Classical in if dist2 p (q i) < s.2 then (i, dist2 p (q i)) else s) (0, dist2 p (q 0))).1

/-- Detector 427-529: one quadrilateral; `hom` is its homography (`cv::findHomography` of the corners
of the square and the four points). -/
noncomputable def decodeQuad (f : Tag.Family) (border : ℕ) (img : Image) (q : Fin 4 → P2)
    (hom : P2 → P2) : Out (Option Det) :=
  match readCode f.dimension border img q with
  | none => .ok none
  | some code => do
    let det ← Tag.decode f code
    let bestRot := nearest q (hom (rotatePoint det.rotation (-1, -1)))
    if det.good then return some ⟨det.id, det.good, fun i => q (i + bestRot)⟩
    else return none

end Kalibr.Print
