import Verif.Common
import Verif.Tactics
import Mathlib.Analysis.SpecialFunctions.Sqrt

/-!
# Model of image masks and of the overlap of two fields of view

Sources: `ImageMask.cpp` and `ImageMask.hpp` of `/repo/aslam_cv/aslam_cameras/`, `calculateOverlappingFov.cpp` of
`/repo/aslam_cv/aslam_imgproc/src/`.

An OpenCV image is a header with a reference to a buffer, and headers can share a buffer.  Simplifications: numbers are real; a
camera is given by its size, by the map of a keypoint to a ray and by which points it sees; scales are positive.
-/

namespace Kalibr.Mask

/-- The pixels of a buffer, by row and column. -/
abbrev Buf := Nat → Nat → Nat

/-- The buffers in use. -/
structure Heap where
  buf : Nat → Buf
  next : Nat

/-- `cv::Mat` of type `CV_8UC1`; `none`: `data == NULL`. -/
structure Image where
  rows : Nat
  cols : Nat
  data : Option Nat

/-- `class ImageMask`. -/
structure ImageMask where
  mask : Image
  scale : ℝ

/-- `ImageMask()`, ImageMask.cpp 10-14. -/
def new : ImageMask := ⟨⟨0, 0, none⟩, 1⟩

/-- Writes to a buffer. -/
def Heap.set (h : Heap) (b r c v : Nat) : Heap :=
  { h with buf := fun b' r' c' => if b' = b ∧ r' = r ∧ c' = c then v else h.buf b' r' c' }

/-- `cv::Mat::create` for this type: keeps the buffer if the size is the same, and takes a new one otherwise. -/
def create (h : Heap) (m : Image) (rows cols : Nat) : Heap × Image × Nat :=
  match m.data with
  | some b => if m.rows = rows ∧ m.cols = cols then (h, m, b) else ({ h with next := h.next + 1 }, ⟨rows, cols, some h.next⟩, h.next)
  | none => ({ h with next := h.next + 1 }, ⟨rows, cols, some h.next⟩, h.next)

/-- `m = cv::Mat::zeros(rows, cols, CV_8UC1)`: `create`, then all pixels are cleared. -/
def assignZeros (h : Heap) (m : Image) (rows cols : Nat) : Heap × Image × Nat :=
  let (h, m, b) := create h m rows cols
  ({ h with buf := fun b' r c => if b' = b then 0 else h.buf b' r c }, m, b)

/-- `mask.clone()`. -/
def clone (h : Heap) (m : Image) : Heap × Image :=
  match m.data with
  | some b => ({ buf := fun b' => if b' = h.next then h.buf b else h.buf b', next := h.next + 1 }, { m with data := some h.next })
  | none => (h, m)

/-- `setMask`, ImageMask.cpp 37-41; the type of the image is right. -/
def setMask (h : Heap) (k : ImageMask) (m : Image) : Heap × ImageMask :=
  let (h, m) := clone h m
  (h, { k with mask := m })

/-- `setMaskFromMatrix`, ImageMask.cpp 64-72: the conversion to `uchar` keeps the last eight bits. -/
def setMaskFromMatrix (h : Heap) (k : ImageMask) (rows cols : Nat) (m : Nat → Nat → Int) : Heap × ImageMask :=
  let (h, i, b) := create h k.mask rows cols
  ((List.range rows).foldl (fun h r => (List.range cols).foldl (fun h c => h.set b r c (m r c % 256).toNat) h) h, { k with mask := i })

/-- `getMaskAsMatrix`, ImageMask.cpp 74-86. -/
def getMaskAsMatrix (h : Heap) (k : ImageMask) : Nat × Nat × (Nat → Nat → Int) :=
  (k.mask.rows, k.mask.cols, fun r c => match k.mask.data with
    | some b => h.buf b r c
    | none => 0)

/-- Conversion of a `double` to `int`: towards zero. -/
noncomputable def trunc (x : ℝ) : Int := if 0 ≤ x then ⌊x⌋ else ⌈x⌉

/-- `isValid`, ImageMask.hpp 34-40: reading a pixel outside the mask is undefined. -/
noncomputable def isValid (h : Heap) (k : ImageMask) (u v : ℝ) : Out Bool :=
  let k1 := trunc (v * k.scale)
  let k0 := trunc (u * k.scale)
  match k.mask.data with
  | none => .ok true
  | some b => if 0 ≤ k1 ∧ k1 < k.mask.rows ∧ 0 ≤ k0 ∧ k0 < k.mask.cols then .ok (decide (0 < h.buf b k1.toNat k0.toNat)) else .ub

/-- A point in homogeneous coordinates. -/
structure P4 where
  x : ℝ
  y : ℝ
  z : ℝ
  w : ℝ

/-- `point.norm()`: of all four coordinates. -/
noncomputable def P4.norm (p : P4) : ℝ := Real.sqrt (p.x ^ 2 + p.y ^ 2 + p.z ^ 2 + p.w ^ 2)

/-- What the function uses of a camera. -/
structure Cam where
  width : Nat
  height : Nat
  ray : ℝ → ℝ → Option P4
  sees : P4 → Bool

/-- `tempPoint(3) = norm / (norm + sampleDistances(i))`, calculateOverlappingFov.cpp 49-50. -/
noncomputable def atDistance (p : P4) (d : Int) : P4 := { p with w := p.norm / (p.norm + d) }

/-- The loop over the samples, calculateOverlappingFov.cpp 45-63: state is the heap and the number of marked pixels. -/
noncomputable def beam (T : P4 → P4) (other : Cam) (b x y : Nat) (p : P4) : List Int → Heap × ℝ → Heap × ℝ
  | [], s => s
  | d :: ds, s =>
    if s.1.buf b y x = 0 then
      beam T other b x y p ds (if other.sees (T (atDistance p d)) then (s.1.set b y x 255, s.2 + 1) else s)
    else s

/-- The loops over the pixels and the quotient, calculateOverlappingFov.cpp 30-67. -/
noncomputable def build (cam other : Cam) (T : P4 → P4) (ds : List Int) (scale : ℝ) (w h b : Nat) (heap : Heap) : Heap × ℝ :=
  let s := (List.range w).foldl (fun s (x : Nat) => (List.range h).foldl (fun s (y : Nat) =>
    match cam.ray (x / scale) (y / scale) with
    | some p => beam T other b x y p ds s
    | none => s) s) (heap, 0)
  (s.1, s.2 / (w * h))

/-- What `calculateOverlappingFOV` leaves behind: the two masks and the two ratios. -/
structure Result where
  heap : Heap
  mask1 : ImageMask
  mask2 : ImageMask
  ratio1 : ℝ
  ratio2 : ℝ

/-- `calculateOverlappingFOV`, calculateOverlappingFov.cpp 5-99.  `outMask1CV` is a copy of the header of the mask of the caller,
and the images of zeros are assigned to the copy. -/
noncomputable def overlap (cam1 cam2 : Cam) (T Tinv : P4 → P4) (heap : Heap) (mask1 mask2 : ImageMask) (ds : List Int) (scale : ℝ) : Result :=
  let w1 := (trunc (cam1.width * scale)).toNat
  let h1 := (trunc (cam1.height * scale)).toNat
  let w2 := (trunc (cam2.width * scale)).toNat
  let h2 := (trunc (cam2.height * scale)).toNat
  let a := assignZeros heap mask1.mask h1 w1
  let c := assignZeros a.1 mask2.mask h2 w2
  let r := build cam1 cam2 Tinv ds scale w1 h1 a.2.2 c.1
  let s := build cam2 cam1 T ds scale w2 h2 c.2.2 r.1
  ⟨s.1, { mask1 with scale := scale }, { mask2 with scale := scale }, r.2, s.2⟩

/-! ## Specification -/

/-- The other camera sees one of the samples on the ray of this pixel. -/
def Seen (cam other : Cam) (T : P4 → P4) (ds : List Int) (scale : ℝ) (x y : Nat) : Prop :=
  ∃ p, cam.ray (x / scale) (y / scale) = some p ∧ ∃ d ∈ ds, other.sees (T (atDistance p d)) = true

/-- The distance of a point from the centre of the camera. -/
noncomputable def P4.dist (p : P4) : ℝ := Real.sqrt ((p.x / p.w) ^ 2 + (p.y / p.w) ^ 2 + (p.z / p.w) ^ 2)

end Kalibr.Mask
