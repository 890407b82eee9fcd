import Verif.Common
import Verif.Tactics
import Verif.Kinematics.Transform
import Mathlib.LinearAlgebra.Matrix.NonsingularInverse

/-!
# Model of the tool that checks a calibration on live images

Source: `/repo/aslam_offline_calibration/kalibr/python/kalibr_camera_validator`.

Simplifications: real numbers.  Not modelled: the images, the detection of the target, the windows and the ROS messages.
`cv2.initUndistortRectifyMap` without distortion is modelled by what OpenCV documents.
-/

namespace Kalibr.Validator

open Kin Matrix

/-! ## The graph of overlapping cameras -/

/-- `self.G.get_eid(a, b)` finds an edge, in either direction. -/
def hasEdge (G : List (Nat × Nat)) (a b : Nat) : Bool := G.contains (a, b) || G.contains (b, a)

/-- Adding one edge, lines 80-83. -/
def addEdge (G : List (Nat × Nat)) (e : Nat × Nat) : List (Nat × Nat) := if hasEdge G e.1 e.2 then G else G ++ [e]

/-- The overlap graph, lines 68-83: `overlaps[c]` are the cameras that overlap with `c`. -/
def overlapGraph (overlaps : List (List Nat)) : List (Nat × Nat) :=
  (overlaps.zipIdx.flatMap fun o => o.1.map fun b => (o.2, b)).foldl addEdge []

/-! ## Poses in the chain -/

/-- The product of baselines from camera `low` on, lines 157-160; `baseline c` is `getExtrinsicsLastCamToHere(c)`. -/
noncomputable def chain (baseline : Nat → Trafo) (low : Nat) : Nat → Trafo
  | 0 => Trafo.one
  | n + 1 => (baseline (low + n + 1)).mul (chain baseline low n)

/-- `getTransformationCamFromTo`, lines 152-167. -/
noncomputable def camFromTo (baseline : Nat → Trafo) (a b : Nat) : Trafo :=
  let T := chain baseline (min a b) (max a b - min a b)
  if a < b then T else T.inverse

/-! ## Rectification -/

/-- The parameters of a pinhole camera without distortion. -/
structure Pinhole where
  fu : ℝ
  fv : ℝ
  pu : ℝ
  pv : ℝ

/-- `camIdealA`, lines 303-304. -/
def Pinhole.K (p : Pinhole) : M3 := !![p.fu, 0, p.pu; 0, p.fv, p.pv; 0, 0, 1]

/-- `c2 = -inv(Pob[:,0:3]) * Pob[:,3]`, lines 314-318; `c1` is the same with the identity as pose. -/
noncomputable def center (K C : M3) (t : V3) : V3 := -((K * C)⁻¹.mulVec (K.mulVec t))

/-- `v / np.linalg.norm(v)`, lines 327-329. -/
noncomputable def unit (v : V3) : V3 := (norm3 v)⁻¹ • v

/-- `old_z_mean`, line 321: the mean of the viewing directions. -/
noncomputable def zMean (C : M3) : V3 := ![(C 2 0 + 0) / 2, (C 2 1 + 0) / 2, (C 2 2 + 1) / 2]

/-- The rotation of the rectified cameras, lines 318-332. -/
noncomputable def rectR (KA KB : M3) (BA : Trafo) : M3 :=
  let c1 := center KA 1 0
  let c2 := center KB BA.C BA.t
  let v1 := c1 - c2
  let v2 := crossProduct (zMean BA.C) v1
  let v3 := crossProduct v1 v2
  Matrix.of ![unit v1, unit v2, unit v3]

/-- The new intrinsics, line 335. -/
noncomputable def rectA (KA KB : M3) : M3 := (2⁻¹ : ℝ) • (KA + KB)

/-- `Rb = R * baseline_BA.inverse().C()`, line 346. -/
noncomputable def rectRb (KA KB : M3) (BA : Trafo) : M3 := rectR KA KB BA * BA.inverse.C

/-- The pixel of homogeneous coordinates. -/
noncomputable def pixel (h : V3) : ℝ × ℝ := (h 0 / h 2, h 1 / h 2)

/-- `cv2.initUndistortRectifyMap(K, 0, R, A, ...)`: the pixel of the image shown at a pixel of the rectified image. -/
noncomputable def rectMap (K R A : M3) (p : ℝ × ℝ) : ℝ × ℝ := pixel (K.mulVec ((A * R)⁻¹.mulVec ![p.1, p.2, 1]))

/-! ## Statistics -/

/-- A number of Python. -/
inductive Num
  | int (n : Nat)
  | float (x : ℝ)

/-- `a / b` in Python 3 is a float. -/
noncomputable def truediv (a b : Nat) : Num := .float (a / b)

/-- `array.reshape(rows, cols)`: a float is refused with a `TypeError`, a wrong size with a `ValueError`. -/
def reshape (l : List ℝ) (rows : Nat) (cols : Num) : Out (List (List ℝ)) :=
  match cols with
  | .float _ => .raise
  | .int c => if rows * c = l.length then .ok ((List.range rows).map fun r => (l.drop (r * c)).take c) else .raise

/-- The errors of the common corners, lines 207-240: those in camera A and those in camera B are collected, and put in a table. -/
noncomputable def pairErrors (errs : List ((ℝ × ℝ) × (ℝ × ℝ))) : Out (List (List ℝ)) :=
  if errs.length > 0 then
    let flat := errs.foldl (fun acc e => acc ++ [e.1.1, e.1.2] ++ [e.2.1, e.2.2]) [0, 0]
    reshape (flat.drop 2) 2 (truediv (flat.drop 2).length 2)
  else .ok []

end Kalibr.Validator
