import Verif.Common
import Mathlib.Data.Real.Basic
import Mathlib.LinearAlgebra.Matrix.NonsingularInverse
import Mathlib.Algebra.Order.Archimedean.Real.Basic
import Mathlib.Algebra.Order.Floor.Ring

/-!
# Undistorters

A model of `aslam_cv/aslam_imgproc/include/aslam_imgproc/implementation/aslamcv_helper.hpp`,
`PinholeUndistorter.hpp`, the map to a pinhole image of `OmniUndistorter.hpp`, `NullUndistorter.hpp` and the factory
of `src/UndistorterBase.cpp`.  Numbers are real numbers: `float` and `double` do not round.  The distortion of the camera
is any pair of functions.  Images are what `cv::remap` and `cv::resize` make of the maps and sizes computed here; the
two functions are not modelled, but the way in which `cv::remap` reads the entries of a map is (`Entry.decode`).
Divisions by zero are not modelled: the theorems name the divisors that must not be zero.
-/

namespace Kalibr.Undist

open Matrix

/-- A point of the plane. -/
abbrev P2 := ℝ × ℝ

/-- A pinhole camera with a distortion and a mask: `PinholeProjection::getCameraMatrix`, `ru()`, `rv()`,
`distortion()` and `mask()`. -/
structure Cam where
  fu : ℝ
  fv : ℝ
  cu : ℝ
  cv : ℝ
  w : ℤ
  h : ℤ
  distort : P2 → P2
  undistort : P2 → P2
  mask : P2 → Bool

/-! ## aslamcv_helper.hpp -/

/-- One of the points the rectangles are made of: its indices in the grid, and the point in normalised coordinates
without distortion (aslamcv_helper.hpp:30-48).  The products and quotients of Line 32 are those of `int`. -/
noncomputable def sample (c : Cam) (x y : ℕ) : P2 :=
  let px : ℝ := (((x : ℤ) * c.w).tdiv 8 : ℤ)
  let py : ℝ := (((y : ℤ) * c.h).tdiv 8 : ℤ)
  c.undistort ((px - c.cu) / c.fu, (py - c.cv) / c.fv)

/-- The indices in the order of the loops (aslamcv_helper.hpp:54-55). -/
def grid : List (ℕ × ℕ) := (List.range 9).flatMap fun y => (List.range 9).map fun x => (x, y)

/-- The eight variables of aslamcv_helper.hpp:50-51. -/
structure Lims where
  iX0 : ℝ
  iX1 : ℝ
  iY0 : ℝ
  iY1 : ℝ
  oX0 : ℝ
  oX1 : ℝ
  oY0 : ℝ
  oY1 : ℝ

/-- Their initial values, with `B` for `FLT_MAX`. -/
def Lims.start (B : ℝ) : Lims := ⟨-B, B, -B, B, B, -B, B, -B⟩

/-- The body of the loop (aslamcv_helper.hpp:56-69). -/
noncomputable def Lims.add (l : Lims) (x y : ℕ) (p : P2) : Lims where
  oX0 := min l.oX0 p.1
  oX1 := max l.oX1 p.1
  oY0 := min l.oY0 p.2
  oY1 := max l.oY1 p.2
  iX0 := if x = 0 then max l.iX0 p.1 else l.iX0
  iX1 := if x = 8 then min l.iX1 p.1 else l.iX1
  iY0 := if y = 0 then max l.iY0 p.2 else l.iY0
  iY1 := if y = 8 then min l.iY1 p.2 else l.iY1

/-- All of the loop. -/
noncomputable def lims (B : ℝ) (c : Cam) (l : List (ℕ × ℕ)) : Lims :=
  l.foldl (fun s q => s.add q.1 q.2 (sample c q.1 q.2)) (Lims.start B)

/-- `cv::Rect_<float>` -/
structure Rect where
  x : ℝ
  y : ℝ
  width : ℝ
  height : ℝ

/-- `icvGetRectangles` (aslamcv_helper.hpp:21-73): the inner and the outer rectangle. -/
noncomputable def rectangles (B : ℝ) (c : Cam) : Rect × Rect :=
  let l := lims B c grid
  (⟨l.iX0, l.iY0, l.iX1 - l.iX0, l.iY1 - l.iY0⟩, ⟨l.oX0, l.oY0, l.oX1 - l.oX0, l.oY1 - l.oY0⟩)

/-- The four entries of a camera matrix that are not fixed. -/
structure Intr where
  fx : ℝ
  fy : ℝ
  cx : ℝ
  cy : ℝ

/-- The projection that maps a rectangle to the viewport (aslamcv_helper.hpp:99-102, 105-108). -/
noncomputable def fit (r : Rect) (w h : ℤ) : Intr :=
  let fx := ((w : ℝ) - 1) / r.width
  let fy := ((h : ℝ) - 1) / r.height
  ⟨fx, fy, -fx * r.x, -fy * r.y⟩

/-- `getOptimalNewCameraMatrix` (aslamcv_helper.hpp:86-119). -/
noncomputable def optimal (B : ℝ) (c : Cam) (alpha : ℝ) (nw nh : ℤ) : Intr :=
  let (w, h) := if nw * nh ≠ 0 then (nw, nh) else (c.w, c.h)
  let (inner, outer) := rectangles B c
  let k0 := fit inner w h
  let k1 := fit outer w h
  ⟨k0.fx * (1 - alpha) + k1.fx * alpha, k0.fy * (1 - alpha) + k1.fy * alpha,
   k0.cx * (1 - alpha) + k1.cx * alpha, k0.cy * (1 - alpha) + k1.cy * alpha⟩

/-- The camera matrix (aslamcv_helper.hpp:111-116). -/
def Intr.matrix (k : Intr) : Matrix (Fin 3) (Fin 3) ℝ := !![k.fx, 0, k.cx; 0, k.fy, k.cy; 0, 0, 1]

/-- An entry of the two maps of types `CV_16SC2` and `CV_16UC1`. -/
structure Entry where
  sx : ℤ
  sy : ℤ
  m2 : ℤ
  deriving DecidableEq

/-- The cast to `short` -/
def short (i : ℤ) : ℤ := i.bmod 65536

/-- The entry of a pixel (aslamcv_helper.hpp:186-191, OmniUndistorter.hpp:116-121), where `rnd` is `saturate_cast<int>`
of a `double`, and `INTER_BITS` is five. -/
def encode (rnd : ℝ → ℤ) (uv : P2) : Entry :=
  let iu := rnd (uv.1 * 32)
  let iv := rnd (uv.2 * 32)
  ⟨short (iu / 32), short (iv / 32), ((iv % 32) * 32 + iu % 32) % 65536⟩

/-- What the loops hand to the distortion at row `i` and column `j`: the inner loop adds the first column of the
inverse `j` times (aslamcv_helper.hpp:162-166, OmniUndistorter.hpp:101-108). -/
noncomputable def ray (inv : Matrix (Fin 3) (Fin 3) ℝ) (i : ℕ) : ℕ → Fin 3 → ℝ
  | 0 => fun k => i * inv k 1 + inv k 2
  | j + 1 => fun k => ray inv i j k + inv k 0

/-- `initUndistortRectifyMap` for the type `CV_16SC2` at row `i` and column `j` (aslamcv_helper.hpp:135-201). -/
noncomputable def mapEntry (rnd : ℝ → ℤ) (c : Cam) (R newK : Matrix (Fin 3) (Fin 3) ℝ) (i j : ℕ) : Entry :=
  let p := ray (newK * R)⁻¹ i j
  let w := 1 / p 2
  let d := c.distort (p 0 * w, p 1 * w)
  encode rnd (c.fu * d.1 + c.cu, c.fv * d.2 + c.cv)

/-! ## PinholeUndistorter.hpp -/

/-- `(int) width * scale` as an `int` (PinholeUndistorter.hpp:102-103): towards zero. -/
noncomputable def scaled (w : ℤ) (scale : ℝ) : ℤ :=
  if 0 ≤ (w : ℝ) * scale then ⌊(w : ℝ) * scale⌋ else ⌈(w : ℝ) * scale⌉

/-- `_idealGeometry` and the maps after `setIdealGeometry` (PinholeUndistorter.hpp:92-136).  `undistortImage` is
`cv::remap` with these maps. -/
structure Undistorter where
  ideal : Cam
  entry : ℕ → ℕ → Entry

/-- `setIdealGeometry` (PinholeUndistorter.hpp:92-136). -/
noncomputable def undistorter (B : ℝ) (rnd : ℝ → ℤ) (c : Cam) (alpha scale : ℝ) : Undistorter :=
  let nw := scaled c.w scale
  let nh := scaled c.h scale
  let k := optimal B c alpha nw nh
  ⟨⟨k.fx, k.fy, k.cx, k.cy, nw, nh, id, id, c.mask⟩, mapEntry rnd c 1 k.matrix⟩

/-! ## OmniUndistorter.hpp -/

/-- `initUndistOmniToPinholeMap` at row `i` and column `j` (OmniUndistorter.hpp:80-124), where `project` is
`euclideanToKeypoint` of the camera without distortion. -/
noncomputable def omniEntry (rnd : ℝ → ℤ) (project : (Fin 3 → ℝ) → P2) (K : Matrix (Fin 3) (Fin 3) ℝ) (i j : ℕ) : Entry :=
  encode rnd (project (ray K⁻¹ i j))

/-- The camera matrix of `setIdealPinholeGeometry` (OmniUndistorter.hpp:209-232), from the points the corners of the
image are back projected to. -/
noncomputable def omniPinhole (back : P2 → Fin 3 → ℝ) (w h : ℕ) : Intr :=
  let tl := back (0, 0)
  let br := back ((w : ℝ), (h : ℝ))
  ⟨w / (br 0 / br 2 - tl 0 / tl 2), h / (br 1 / br 2 - tl 1 / tl 2), ((w : ℝ) - 1) / 2, ((h : ℝ) - 1) / 2⟩

/-! ## NullUndistorter.hpp -/

/-- A frame: the size of the image, whether the image shares its memory with the one handed in, and the camera. -/
structure Frame where
  size : ℤ × ℤ
  shared : Bool
  cam : Cam

/-- `resizeIntrinsics` (PinholeProjection.hpp:567-577). -/
noncomputable def resize (c : Cam) (scale : ℝ) : Cam :=
  { c with fu := c.fu * scale, fv := c.fv * scale, cu := c.cu * scale, cv := c.cv * scale,
           w := scaled c.w scale, h := scaled c.h scale }

open Classical in
/-- `setIdealGeometry` of the null undistorter (NullUndistorter.hpp:102-115). -/
noncomputable def nullCam (c : Cam) (scale : ℝ) : Cam := if scale ≠ 1 then resize c scale else c

open Classical in
/-- `constructUndistortedFrame` and `undistortImage` of the null undistorter (NullUndistorter.hpp:61-88) for an image of
some size; `cv::resize` makes an image of the size times the scale, rounded. -/
noncomputable def nullFrame (rnd : ℝ → ℤ) (c : Cam) (scale : ℝ) (makeCopy : Bool) (size : ℤ × ℤ) : Frame :=
  if scale ≠ 1 then ⟨(rnd (size.1 * scale), rnd (size.2 * scale)), false, nullCam c scale⟩
  else ⟨size, !makeCopy, nullCam c scale⟩

/-! ## UndistorterBase.cpp -/

/-- The classes the factory makes objects of. -/
inductive Dist where
  | none | radtan | equi
  deriving DecidableEq, Repr

/-- The undistorters. -/
inductive Kind where
  | null (omni : Bool) (d : Dist) (rolling masked : Bool)
  | pinhole (d : Dist) (masked : Bool)
  | omni (masked : Bool)
  deriving DecidableEq, Repr

/-- `createUndistorter` (UndistorterBase.cpp:15-168), in the order of the comparisons. -/
def create (type : String) : Out Kind :=
  if type = "NullPinholeCameraGeometry" then .ok (.null false .none false false)
  else if type = "NullDistortedPinholeCameraGeometry" then .ok (.null false .radtan false false)
  else if type = "NullEquidistantDistortedPinholeCameraGeometry" then .ok (.null false .equi false false)
  else if type = "NullOmniCameraGeometry" then .ok (.null true .none false false)
  else if type = "NullDistortedOmniCameraGeometry" then .ok (.null true .radtan false false)
  else if type = "NullEquidistantDistortedOmniCameraGeometry" then .ok (.null true .equi false false)
  else if type = "NullPinholeRsCameraGeometry" then .ok (.null false .none true false)
  else if type = "NullDistortedPinholeRsCameraGeometry" then .ok (.null false .radtan true false)
  else if type = "NullEquidistantDistortedPinholeRsCameraGeometry" then .ok (.null false .equi true false)
  else if type = "NullOmniRsCameraGeometry" then .ok (.null true .none true false)
  else if type = "NullDistortedOmniRsCameraGeometry" then .ok (.null true .radtan true false)
  else if type = "NullEquidistantDistortedOmniRsCameraGeometry" then .ok (.null true .equi true false)
  else if type = "NullMaskedPinholeCameraGeometry" then .ok (.null false .none false true)
  else if type = "NullMaskedDistortedPinholeCameraGeometry" then .ok (.null false .radtan false true)
  else if type = "NullMaskedEquidistantDistortedPinholeCameraGeometry" then .ok (.null false .equi false true)
  else if type = "NullMaskedOmniCameraGeometry" then .ok (.null true .none false true)
  else if type = "NullMaskedDistortedOmniCameraGeometry" then .ok (.null true .radtan false true)
  else if type = "NullMaskedEquidistantDistortedOmniCameraGeometry" then .ok (.null true .equi false true)
  else if type = "NullMaskedPinholeRsCameraGeometry" then .ok (.null false .none true true)
  else if type = "NullMaskedDistortedPinholeRsCameraGeometry" then .ok (.null false .radtan true true)
  else if type = "NullMaskedEquidistantDistortedPinholeRsCameraGeometry" then .ok (.null false .equi true true)
  else if type = "NullMaskedOmniRsCameraGeometry" then .ok (.null true .none true true)
  else if type = "NullMaskedDistortedOmniRsCameraGeometry" then .ok (.null true .radtan true true)
  else if type = "NullMaskedEquidistantDistortedOmniRsCameraGeometry" then .ok (.null true .equi true true)
  else if type = "MaskedPinholeUndistorter" then .ok (.pinhole .radtan true)
  else if type = "PinholeUndistorter" then .ok (.pinhole .radtan false)
  else if type = "MaskedEquidistantPinholeUndistorter" then .ok (.pinhole .equi true)
  else if type = "EquidistantPinholeUndistorter" then .ok (.pinhole .equi false)
  else if type = "MaskedOmniUndistorter" then .ok (.omni true)
  else if type = "OmniUndistorter" then .ok (.omni false)
  else .raise

/-! ## Specification -/

/-- Where `cv::remap` takes a pixel from: the whole part, and the fractions in units of a thirty-second. -/
noncomputable def Entry.decode (e : Entry) : P2 := (e.sx + ((e.m2 % 32 : ℤ) : ℝ) / 32, e.sy + ((e.m2 / 32 : ℤ) : ℝ) / 32)

/-- Rounding to an integer that is next, whichever of two that are equally near. -/
def Rounds (rnd : ℝ → ℤ) : Prop := ∀ x, |(rnd x : ℝ) - x| ≤ 1 / 2

/-- The pixel of a point in normalised coordinates without distortion. -/
def Intr.pixel (k : Intr) (p : P2) : P2 := (k.fx * p.1 + k.cx, k.fy * p.2 + k.cy)

/-- The image of a point in space. -/
noncomputable def Cam.project (c : Cam) (P : Fin 3 → ℝ) : P2 :=
  let d := c.distort (P 0 / P 2, P 1 / P 2)
  (c.fu * d.1 + c.cu, c.fv * d.2 + c.cv)

/-- The point is in the rectangle. -/
def Rect.has (r : Rect) (p : P2) : Prop := r.x ≤ p.1 ∧ p.1 ≤ r.x + r.width ∧ r.y ≤ p.2 ∧ p.2 ≤ r.y + r.height

/-- The point is inside the rectangle and not on its border. -/
def Rect.inside (r : Rect) (p : P2) : Prop := r.x < p.1 ∧ p.1 < r.x + r.width ∧ r.y < p.2 ∧ p.2 < r.y + r.height

/-- The name of an undistorter. -/
def nameOf : Kind → String
  | .null o d r m =>
    "Null" ++ (if m then "Masked" else "") ++
    (match d with | .none => "" | .radtan => "Distorted" | .equi => "EquidistantDistorted") ++
    (if o then "Omni" else "Pinhole") ++ (if r then "Rs" else "") ++ "CameraGeometry"
  | .pinhole d m =>
    (if m then "Masked" else "") ++ (match d with | .none => "None" | .radtan => "" | .equi => "Equidistant") ++
    "PinholeUndistorter"
  | .omni m => (if m then "Masked" else "") ++ "OmniUndistorter"

end Kalibr.Undist
