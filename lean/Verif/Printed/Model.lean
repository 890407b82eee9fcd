import Mathlib.Analysis.SpecialFunctions.Trigonometric.Basic
import Verif.Target.Model
import Verif.Tag.Model
import Verif.Printed.Table

/-!
# The printed target and how it is read

Models `aslam_offline_calibration/kalibr/python/kalibr_create_target_pdf` (PDF; the copy
`aslam_cv/aslam_cameras_april/src/createTargetPDF.py` differs by not knowing identifiers to skip) and the decoding of one
quadrilateral, step eight of `TagDetector::extractTags`
(`aslam_offline_calibration/aslam_apriltag2/src/TagDetector.cc`, TD) with `Quad::interpolate`
(`aslam_apriltag2/src/Quad.cc`).

A page is the list of the rectangles filled with black, in centimetres; the arrows, their labels and the captions are left
out.  Coordinates are exact reals.  `sys.exit` and exceptions are the outcome `raise`; nothing is written then.
-/

namespace Kalibr.Printed

open Kalibr.Target (P2)

/-- `path.rect(x, y, w, h)` of pyx. -/
structure Rect where
  x : ℝ
  y : ℝ
  w : ℝ
  h : ℝ

/-- Whether a point of the page is in the rectangle. -/
def Rect.Covers (r : Rect) (p : P2) : Prop := r.x ≤ p.1 ∧ p.1 ≤ r.x + r.w ∧ r.y ≤ p.2 ∧ p.2 ≤ r.y + r.h

/-- Whether a point of the page is black. -/
def Black (page : List Rect) (p : P2) : Prop := ∃ r ∈ page, r.Covers p

/-- `np.rot90` of a square matrix: the last column becomes the first row. -/
def rot90 (d : ℕ) (M : ℕ → ℕ → Bool) : ℕ → ℕ → Bool := fun i j => M j (d - 1 - i)

/-- `codeMatrix` (PDF:58-66): true where the bit is not set, turned twice. -/
def codeMatrix (d code : ℕ) : ℕ → ℕ → Bool := rot90 d (rot90 d fun i j => !code.testBit (d * i + j))

/-- The four borders (PDF:53-56). -/
noncomputable def borders (x y size border : ℝ) : List Rect :=
  [⟨x, y, size, border⟩, ⟨x, y + size - border, size, border⟩, ⟨x + size - border, y, border, size⟩,
   ⟨x, y, border, size⟩]

/-- The bits (PDF:69-72) for cells of the size `s` and `b` cells of border. -/
noncomputable def bits (x y s : ℝ) (d b code : ℕ) : List Rect :=
  (List.range d).flatMap fun i => (List.range d).flatMap fun j =>
    if codeMatrix d code i j then [⟨x + (j + b : ℕ) * s, y + (((b : ℝ) - 1) + d - i) * s, s, s⟩] else []

/-- The squares at the corners (PDF:75-86). -/
noncomputable def squares (x y size spacing : ℝ) : List Rect :=
  [⟨x - spacing * size, y - spacing * size, spacing * size, spacing * size⟩,
   ⟨x + size, y - spacing * size, spacing * size, spacing * size⟩,
   ⟨x + size, y + size, spacing * size, spacing * size⟩,
   ⟨x - spacing * size, y + size, spacing * size, spacing * size⟩]

/-- `generateAprilTag` (PDF:35-86) for a code of `d * d` bits, with `b` cells of border. -/
noncomputable def tag (x y size spacing : ℝ) (d b code : ℕ) : List Rect :=
  let s := size / (d + b * 2)
  borders x y size (b * s) ++ bits x y s d b code ++ squares x y size spacing

/-- The tags in the order they are drawn, as column and row (PDF:108-109). -/
def places (nCols nRows : ℕ) : List (ℕ × ℕ) :=
  (List.range nRows).flatMap fun y => (List.range nCols).map fun x => (x, y)

/-- The loop over the tags (PDF:108-113); the size is in centimetres.  For an identifier that the family does not have
`tagCode` is not bound (PDF:37-40), and `in None` raises (PDF:95-96 sets another variable). -/
noncomputable def drawTags (nCols : ℕ) (size spacing : ℝ) (d : ℕ) (codes : List ℕ) (skip : Option (List ℕ)) :
    List (ℕ × ℕ) → Out (List Rect)
  | [] => .ok []
  | (x, y) :: l =>
    match skip with
    | none => .raise
    | some ids =>
      if nCols * y + x ∈ ids then drawTags nCols size spacing d codes skip l
      else match codes[nCols * y + x]? with
        | none => .raise
        | some code =>
          (drawTags nCols size spacing d codes skip l).bind fun r =>
            .ok (tag (x * (1 + spacing) * size) (y * (1 + spacing) * size) size spacing d 2 code ++ r)

/-- `generateAprilBoard` (PDF:89-113) with the size in metres. -/
noncomputable def aprilBoard (nCols nRows : ℕ) (size spacing : ℝ) (d : ℕ) (codes : List ℕ) (skip : Option (List ℕ)) :
    Out (List Rect) :=
  open Classical in
  if spacing < 0 ∨ spacing > 1 then .raise
  else drawTags nCols (size * 100) spacing d codes skip (places nCols nRows)

/-- `generateCheckerboard` (PDF:135-149). -/
noncomputable def checkerboard (nCols nRows : ℕ) (sizeCols sizeRows : ℝ) : List Rect :=
  (List.range (nCols + 1)).flatMap fun (x : ℕ) => (List.range (nRows + 1)).flatMap fun (y : ℕ) =>
    if (x + y + 1) % 2 ≠ 0 then
      [⟨x * (sizeCols * 100), y * (sizeRows * 100), sizeCols * 100, sizeRows * 100⟩]
    else []

/-! ## Reading a quadrilateral -/

/-- `Quad::interpolate` (Quad.cc:38-48, `INTERPOLATE` is defined) of `Quad::interpolate01` (Quad.cc:50-52). -/
noncomputable def interpolate01 (q : Fin 4 → P2) (x y : ℝ) : P2 :=
  let r1 := q 0 + ((2 * x - 1 + 1) / 2) • (q 1 - q 0)
  let r2 := q 3 + ((2 * x - 1 + 1) / 2) • (q 2 - q 3)
  r1 + ((2 * y - 1 + 1) / 2) • (r2 - r1)

/-- The word that is read (TD:456-484).  `white` tells whether the image is above the threshold at a point; rounding to
pixels and the border of the image are left out.  The word is not truncated to 64 bits. -/
noncomputable def readCode (d b : ℕ) (white : P2 → Bool) (q : Fin 4 → P2) : ℕ :=
  let dd : ℝ := 2 * b + d
  (List.range d).foldl (fun w (k : ℕ) =>
    (List.range d).foldl (fun w (ix : ℕ) =>
      Nat.bit (white (interpolate01 q ((b + ix + 1 / 2) / dd) ((b + (d - 1 - k : ℕ) + 1 / 2) / dd))) w) w) 0

/-- The distance of two points. -/
noncomputable def dist2D (p q : P2) : ℝ := √((p.1 - q.1) * (p.1 - q.1) + (p.2 - q.2) * (p.2 - q.2))

/-- `bestRot` (TD:511-519): the first of the corners that are closest to a point; `far` is `FLT_MAX`. -/
noncomputable def bestRot (far : ℝ) (q : Fin 4 → P2) (p : P2) : Fin 4 :=
  open Classical in
  ((List.finRange 4).foldl (fun (s : ℝ × Fin 4) i => if dist2D p (q i) < s.1 then (dist2D p (q i), i) else s)
    (far, 0)).2

/-- The decoding of one quadrilateral (TD:486-522): the detection and its corners.  `H` is the homography of the
quadrilateral. -/
noncomputable def detect (f : Tag.Family) (b : ℕ) (far : ℝ) (white : P2 → Bool) (q : Fin 4 → P2) (H : P2 → P2) :
    Out (Tag.Detection × (Fin 4 → P2)) :=
  (Tag.decode f (readCode f.dimension b white q)).bind fun det =>
    let c := Real.cos (det.rotation * Real.pi / 2)
    let s := Real.sin (det.rotation * Real.pi / 2)
    let bottomLeft := H (c * (-1) + -s * (-1), s * (-1) + c * (-1))
    .ok (det, fun i => q (i + bestRot far q bottomLeft))

end Kalibr.Printed
