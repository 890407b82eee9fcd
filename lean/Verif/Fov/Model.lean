import Mathlib.Data.Real.Sqrt
import Mathlib.LinearAlgebra.Matrix.NonsingularInverse
import Mathlib.Algebra.Order.Archimedean.Real.Basic
import Mathlib.Algebra.BigOperators.Group.Finset.Basic

/-!
# The overlap of the fields of view of two cameras

A model of `calculateOverlappingFOV` in `aslam_cv/aslam_imgproc/src/calculateOverlappingFov.cpp` and of the template with
the same body in `include/aslam_imgproc/implementation/calculateOverlappingFov.hpp:24-113`.  A camera is its size and
two functions: back projection of a pixel, which may fail, and whether a point in homogeneous coordinates is seen.
A transformation is its matrix.  A `cv::Mat` shares its memory with the one it is copied from; the assignment of
`cv::Mat::zeros` keeps that memory if size and type are the same and takes new memory if not.  Numbers are real
numbers.
-/

namespace Kalibr.Fov

open Matrix

/-- A point in homogeneous coordinates, `Eigen::Vector4d`. -/
abbrev V4 := Fin 4 → ℝ

/-- `CameraGeometryBase`: `width`, `height`, `vsKeypointToHomogeneous` and `vsHomogeneousToKeypoint`. -/
structure Cam where
  w : ℤ
  h : ℤ
  back : ℝ × ℝ → Option V4
  sees : V4 → Bool

/-- `ImageMask`: the sizes of the matrix, its entries by row and column, and the scale. -/
structure Mask where
  rows : ℕ
  cols : ℕ
  data : ℕ → ℕ → ℕ
  scale : ℝ

/-- The default constructor (ImageMask.cpp:10-11): a matrix without entries. -/
def Mask.empty : Mask := ⟨0, 0, fun _ _ => 0, 1⟩

/-- `(int) width * scale` as an `int` (calculateOverlappingFov.cpp:15-18), for sizes that are not negative. -/
noncomputable def size (w : ℤ) (scale : ℝ) : ℕ := ⌊(w : ℝ) * scale⌋.toNat

/-- `point.norm()` -/
noncomputable def norm (p : V4) : ℝ := √(p 0 ^ 2 + p 1 ^ 2 + p 2 ^ 2 + p 3 ^ 2)

/-- `tempPoint(3) = norm / (norm + sampleDistances(i))` (calculateOverlappingFov.cpp:45-46). -/
noncomputable def sendTo (p : V4) (d : ℤ) : V4 := ![p 0, p 1, p 2, norm p / (norm p + d)]

/-- The inner loop (calculateOverlappingFov.cpp:42-58): the entry of the mask and the counter, for the distances that
are left. -/
def beam (test : ℤ → Bool) : List ℤ → ℕ × ℕ → ℕ × ℕ
  | [], s => s
  | d :: ds, s => if s.1 = 0 then beam test ds (if test d then (255, s.2 + 1) else s) else s

/-- The body of the two outer loops (calculateOverlappingFov.cpp:34-60, 66-96) for one pixel: `T` is the
transformation that is applied to the point. -/
noncomputable def pixel (me other : Cam) (T : Matrix (Fin 4) (Fin 4) ℝ) (ds : List ℤ) (scale : ℝ) (x y : ℕ)
    (s : (ℕ → ℕ → ℕ) × ℕ) : (ℕ → ℕ → ℕ) × ℕ :=
  match me.back ((x : ℝ) / scale, (y : ℝ) / scale) with
  | none => s
  | some p =>
    let r := beam (fun d => other.sees (T.mulVec (sendTo p d))) ds (s.1 y x, s.2)
    (fun y' x' => if y' = y ∧ x' = x then r.1 else s.1 y' x', r.2)

/-- The two outer loops, from a mask of zeros and a counter at zero (calculateOverlappingFov.cpp:23-24, 32-34). -/
noncomputable def scan (me other : Cam) (T : Matrix (Fin 4) (Fin 4) ℝ) (ds : List ℤ) (scale : ℝ) (w h : ℕ) :
    (ℕ → ℕ → ℕ) × ℕ :=
  (List.range w).foldl (fun s x => (List.range h).foldl (fun s y => pixel me other T ds scale x y s) s)
    (fun _ _ => 0, 0)

/-- One of the two halves: the mask that was handed in and the ratio (calculateOverlappingFov.cpp:21-26, 31-61 and
63-97).  The local matrix is a copy of the one of the mask. -/
noncomputable def half (me other : Cam) (T : Matrix (Fin 4) (Fin 4) ℝ) (ds : List ℤ) (scale : ℝ) (m : Mask) :
    Mask × ℝ :=
  let w := size me.w scale
  let h := size me.h scale
  let r := scan me other T ds scale w h
  let m := { m with scale := scale }
  (if m.rows = h ∧ m.cols = w then { m with data := r.1 } else m, (r.2 : ℝ) / ((w : ℝ) * h))

/-- `calculateOverlappingFOV` (calculateOverlappingFov.cpp:5-98). -/
noncomputable def overlap (c1 c2 : Cam) (T12 : Matrix (Fin 4) (Fin 4) ℝ) (m1 m2 : Mask) (ds : List ℤ) (scale : ℝ) :
    (Mask × ℝ) × Mask × ℝ :=
  (half c1 c2 T12⁻¹ ds scale m1, half c2 c1 T12 ds scale m2)

/-! ## Specification -/

/-- The place of a point that is given in homogeneous coordinates. -/
noncomputable def place (p : V4) : Fin 3 → ℝ := ![p 0 / p 3, p 1 / p 3, p 2 / p 3]

/-- The distance of a place from the camera. -/
noncomputable def distance (p : Fin 3 → ℝ) : ℝ := √(p 0 ^ 2 + p 1 ^ 2 + p 2 ^ 2)

/-- A pixel of the first camera shows, at one of the distances, a point the second camera sees: `q` is that point in the
frame of the second camera, and `T` leads from there to the frame of the first. -/
def Shared (me other : Cam) (T : Matrix (Fin 4) (Fin 4) ℝ) (ds : List ℤ) (scale : ℝ) (x y : ℕ) : Prop :=
  ∃ p, me.back ((x : ℝ) / scale, (y : ℝ) / scale) = some p ∧
    ∃ d ∈ ds, ∃ q, T.mulVec q = sendTo p d ∧ other.sees q = true

end Kalibr.Fov
