import Verif.Common
import Verif.Tactics
import Mathlib.Data.Matrix.Mul
import Mathlib.LinearAlgebra.Matrix.Notation
import Mathlib.Analysis.SpecialFunctions.Complex.Arg

/-!
# The homography of a quadrilateral

Sources, below `/repo/aslam_offline_calibration/aslam_apriltag2/src`: `Homography33.cc` (Homography; `STABLE_H` and
`INTERPOLATE` are defined), `Quad.cc` (Quad), `TagDetection.cc` (Detection), `TagDetector.cc` (Detector).  Numbers are reals.
`cv::findHomography` is a parameter that gives a matrix, or none where OpenCV gives an empty one.
-/

namespace Kalibr.Homog

abbrev P2 := ℝ × ℝ
abbrev M3 := Matrix (Fin 3) (Fin 3) ℝ

/-- `cv::findHomography` of four points and their images. -/
abbrev Find := List P2 → List P2 → Option M3

/-- The class (Homography33.h:61-68, without the unused matrix `fA`). -/
structure Hom where
  cxy : P2
  H : M3
  valid : Bool
  srcPts : List P2
  dstPts : List P2

/-- The constructor (Homography 11-14). -/
def Hom.new (c : P2) : Hom := ⟨c, 0, false, [], []⟩

/-- `setCorrespondences` (Homography 22-27). -/
def Hom.setCorrespondences (h : Hom) (s d : List P2) : Hom := { h with valid := false, srcPts := s, dstPts := d }

/-- `compute` (Homography 159-178): the elements 0 to 3 of both vectors are read without a check, and so are the elements of the
matrix, which may be empty. -/
def Hom.compute (find : Find) (h : Hom) : Out Hom :=
  if h.valid then .ok h
  else if h.srcPts.length < 4 ∨ h.dstPts.length < 4 then .ub
  else match find (h.srcPts.take 4) ((h.dstPts.take 4).map fun p => (p.1 - h.cxy.1, p.2 - h.cxy.2)) with
    | some H => .ok { h with H := H, valid := true }
    | none => .ub

/-- `getH` (Homography 16-19). -/
def Hom.getH (find : Find) (h : Hom) : Out (M3 × Hom) := (h.compute find).bind fun h => .ok (h.H, h)

/-- The arithmetic of `project` (Homography 204-210).  A quotient by zero is infinite or not a number, here `none`. -/
noncomputable def point (H : M3) (c : P2) (x y : ℝ) : Option P2 :=
  let a := H 0 0 * x + H 0 1 * y + H 0 2
  let b := H 1 0 * x + H 1 1 * y + H 1 2
  let z := H 2 0 * x + H 2 1 * y + H 2 2
  if z = 0 then none else some (a / z + c.1, b / z + c.2)

/-- `project` (Homography 201-211). -/
noncomputable def Hom.project (find : Find) (h : Hom) (x y : ℝ) : Out (Option P2 × Hom) :=
  (h.compute find).bind fun h => .ok (point h.H h.cxy x y, h)

/-- The corners of a tag, in the order of Quad 16-20. -/
def corner : Fin 4 → P2 := ![(-1, -1), (1, -1), (1, 1), (-1, 1)]

/-- The homography of a `Quad` (Quad 13-21). -/
def ofQuad (c : P2) (q : Fin 4 → P2) : Hom := (Hom.new c).setCorrespondences (List.ofFn corner) (List.ofFn q)

/-- The rotation by quarter turns (Detector 494-501). -/
noncomputable def turn (k : ℕ) : M3 :=
  let c := Real.cos (k * Real.pi / 2)
  let s := Real.sin (k * Real.pi / 2)
  !![c, -s, 0;
     s, c, 0;
     0, 0, 1]

/-- `TagDetection::interpolate` (Detection 44-51). -/
noncomputable def interpolate (H : M3) (hxy : P2) (x y : ℝ) : P2 :=
  let z := H 2 0 * x + H 2 1 * y + H 2 2
  if z = 0 then (0, 0)
  else ((H 0 0 * x + H 0 1 * y + H 0 2) / z + hxy.1, (H 1 0 * x + H 1 1 * y + H 1 2) / z + hxy.2)

/-- `TagDetection::getXYOrientation` (Detection 33-42); reals are never "not a number". -/
noncomputable def orientation (H : M3) (hxy : P2) : ℝ :=
  let p0 := interpolate H hxy (-1) (-1)
  let p1 := interpolate H hxy 1 (-1)
  Complex.arg ⟨p1.1 - p0.1, p1.2 - p0.2⟩

/-- The homography of a detection whose tag is turned `k` times (Detector 490-504). -/
noncomputable def detected (find : Find) (h : Hom) (k : ℕ) : Out (M3 × P2) :=
  (h.getH find).bind fun r => .ok (r.1 * turn k, r.2.cxy)

/-! ## Programs -/

/-- What a program does; `write` writes through the reference that `getH` gives. -/
inductive Op
  | set (s d : List P2)
  | getH
  | project (x y : ℝ)
  | write (M : M3)

/-- What it sees. -/
inductive Obs
  | unit
  | mat (M : M3)
  | pt (p : Option P2)

/-- One call. -/
noncomputable def step (find : Find) (h : Hom) : Op → Out (Obs × Hom)
  | .set s d => .ok (.unit, h.setCorrespondences s d)
  | .getH => (h.getH find).bind fun r => .ok (.mat r.1, r.2)
  | .project x y => (h.project find x y).bind fun r => .ok (.pt r.1, r.2)
  | .write M => (h.getH find).bind fun r => .ok (.unit, { r.2 with H := M })

/-- A program: what its calls answered. -/
noncomputable def run (find : Find) (h : Hom) : List Op → Out (List Obs)
  | [] => .ok []
  | o :: os => (step find h o).bind fun r => (run find r.2 os).bind fun l => .ok (r.1 :: l)

/-! ## Specification -/

/-- What the homography is about: points, or a matrix that was written. -/
inductive Cur
  | pts (s d : List P2)
  | mat (M : M3)

/-- The homography, computed anew. -/
def homOf (find : Find) (c : P2) : Cur → Out M3
  | .mat M => .ok M
  | .pts s d =>
    if s.length < 4 ∨ d.length < 4 then .ub
    else match find (s.take 4) ((d.take 4).map fun p => (p.1 - c.1, p.2 - c.2)) with
      | some H => .ok H
      | none => .ub

/-- The answers of a program that keeps no computed homography. -/
noncomputable def spec (find : Find) (c : P2) : Cur → List Op → Out (List Obs)
  | _, [] => .ok []
  | _, .set s d :: os => (spec find c (.pts s d) os).bind fun l => .ok (.unit :: l)
  | u, .getH :: os => (homOf find c u).bind fun H => (spec find c u os).bind fun l => .ok (.mat H :: l)
  | u, .project x y :: os => (homOf find c u).bind fun H => (spec find c u os).bind fun l => .ok (.pt (point H c x y) :: l)
  | u, .write M :: os => (homOf find c u).bind fun _ => (spec find c (.mat M) os).bind fun l => .ok (.unit :: l)

/-- `H` takes the point `s` to `d`, in homogeneous coordinates. -/
def Takes (H : M3) (s d : P2) : Prop := ∃ z, z ≠ 0 ∧ H.mulVec ![s.1, s.2, 1] = ![z * d.1, z * d.2, z]

end Kalibr.Homog
