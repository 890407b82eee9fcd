import Verif.App.Chain
import Verif.Kinematics.AxisAngle
import Mathlib.Data.List.Sort

/-!
# Model of the solves that give the first guess of a camera calibration

Source: `/repo/aslam_offline_calibration/kalibr/python/kalibr_camera_calibration/CameraIntializers.py` (cited as `CI.py`).

A transformation is an element of a group `M` that acts on the points `X`; `C`, `t` and `make` are its rotation matrix, its
translation, and `Transformation(rt2Transform(C, t))`. What `estimateTransformation` returns (the pose of the target, whether it
reports success or not: the code does not look) and the result of the optimizer are arguments. An observation gives
the image point of a corner, if it is seen. The log is not modelled.
-/

namespace Kalibr.Init

open Kalibr.Kin

/-- `obs.imagePoint(i)`: the point, if it is valid. -/
abbrev Obs (Y : Type) := Nat → Option Y

/-- `np.median` of a list that is not empty. -/
noncomputable def median (l : List ℝ) : ℝ :=
  let s := l.insertionSort (· ≤ ·)
  if l.length % 2 = 1 then s.getD (l.length / 2) 0 else (s.getD (l.length / 2 - 1) 0 + s.getD (l.length / 2) 0) / 2

/-- The median of each component: `np.median(..., axis=0)`. -/
noncomputable def median3 (l : List V3) : V3 := fun k => median (l.map fun v => v k)

/-- The design variables. -/
inductive Dv where
  | dist (cam : Nat)
  | proj (cam : Nat)
  | shutter (cam : Nat)
  | baseQ (i : Nat)
  | baseT (i : Nat)
  | poseQ (view : Nat)
  | poseT (view : Nat)
  deriving DecidableEq

/-- An error term: camera, view, corner and the point that was seen. -/
structure Term (Y : Type) where
  cam : Nat
  view : Nat
  corner : Nat
  y : Y
  deriving DecidableEq

/-- What is handed to the optimizer: the values the baselines and poses start from, the design variables, each with whether
it is active, and the error terms. -/
structure Problem (M Y : Type) where
  baselines : List M
  poses : List M
  dvs : List (Dv × Bool)
  terms : List (Term Y)

/-- CI.py 117-123, 219-226, 320-327: the terms of one observation of a target with `n` corners. -/
def termsOf {Y : Type} (n cam view : Nat) (o : Obs Y) : List (Term Y) :=
  (List.range n).filterMap fun i => (o i).map fun y => ⟨cam, view, i, y⟩

variable {M X Y : Type} [Group M] [MulAction M X]

/-- CI.py 108-113, 312-316: the transformation from the target to camera `cam`. -/
def camPose (baselines : List M) (pose : M) (cam : Nat) : M :=
  (baselines.take cam).foldl (fun T b => b * T) pose⁻¹

/-- The point that an error term compares its measurement with: `cam.model.reprojectionError(y, invR, T_cam_w * p_target, cam.dv)`. -/
def predict (proj : Nat → X → Y) (point : Nat → X) (baselines : List M) (poses : Nat → M) (e : Term Y) : Y :=
  proj e.cam (camPose baselines (poses e.view) e.cam • point e.corner)

/-! ## `stereoCalibrate` -/

/-- CI.py 20-31: the baselines of the views that both cameras see. -/
def pairBaselines (pnpL pnpH : Obs Y → M) (views : List (Option (Obs Y) × Option (Obs Y))) : List M :=
  views.filterMap fun v =>
    match v.1, v.2 with
    | some l, some h => some ((pnpH h)⁻¹ * pnpL l)
    | _, _ => none

/-- CI.py 19-38: the initial baseline. Without a common view `rv` has no value. -/
noncomputable def stereoGuess (C : M → M3) (t : M → V3) (make : M3 → V3 → M) (bs : List M) : Out M :=
  if bs = [] then .raise
  else .ok (make (rvToR (median3 (bs.map fun b => rvOfR (C b)))) (median3 (bs.map t)))

/-- CI.py 19, 37-40: a baseline that is given is used as it is. -/
noncomputable def stereoStart (C : M → M3) (t : M → V3) (make : M3 → V3 → M) (pnpL pnpH : Obs Y → M) (baseline : Option M)
    (views : List (Option (Obs Y) × Option (Obs Y))) : Out M :=
  match baseline with
  | none => stereoGuess C t make (pairBaselines pnpL pnpH views)
  | some b => .ok b

/-- CI.py 64-70: the initial pose in one view. -/
def stereoPose (pnpL pnpH : Obs Y → M) (baseline : M) (v : Option (Obs Y) × Option (Obs Y)) : Out M :=
  match v.1, v.2 with
  | some l, _ => .ok (pnpL l)
  | none, some h => .ok (pnpH h * baseline)
  | none, none => .raise

/-- CI.py 76-83, 200-202, 277-280: the variables of a camera. -/
def camDvs (cam : Nat) (projection distortion : Bool) : List (Dv × Bool) :=
  [(.dist cam, distortion), (.proj cam, projection), (.shutter cam, false)]

/-- CI.py 6-13: the variables of a pose. -/
def poseDvs (view : Nat) : List (Dv × Bool) := [(.poseQ view, true), (.poseT view, true)]

/-- CI.py 54-127: the problem of a pair of cameras. -/
noncomputable def stereoProblem (C : M → M3) (t : M → V3) (make : M3 → V3 → M) (pnpL pnpH : Obs Y → M) (n : Nat) (distortionActive : Bool)
    (baseline : Option M) (views : List (Option (Obs Y) × Option (Obs Y))) : Out (Problem M Y) := do
  let b ← stereoStart C t make pnpL pnpH baseline views
  let poses ← views.mapM (stereoPose pnpL pnpH b)
  return ⟨[b], poses,
    [(.baseQ 0, true), (.baseT 0, true)] ++ (List.range views.length).flatMap poseDvs ++ camDvs 0 true distortionActive ++ camDvs 1 true distortionActive,
    (views.zipIdx.flatMap fun v => (v.1.1.map (termsOf n 0 v.2)).getD []) ++
      views.zipIdx.flatMap fun v => (v.1.2.map (termsOf n 1 v.2)).getD []⟩

/-- CI.py 153-188: the result; `optimize` gives the baseline it found, or nothing if it failed. -/
noncomputable def stereoCalibrate (C : M → M3) (t : M → V3) (make : M3 → V3 → M) (pnpL pnpH : Obs Y → M) (n : Nat) (distortionActive : Bool)
    (baseline : Option M) (views : List (Option (Obs Y) × Option (Obs Y))) (optimize : Problem M Y → Option M) : Out (Bool × M) := do
  let p ← stereoProblem C t make pnpL pnpH n distortionActive baseline views
  match optimize p, p.baselines with
  | some b, _ => return (true, b)
  | none, b :: _ => return (false, b)
  | none, [] => .raise

/-! ## `calibrateIntrinsics` -/

/-- CI.py 197-226: the problem of one camera. -/
def intrinsicsProblem (pnp : Obs Y → M) (n : Nat) (distortionActive intrinsicsActive : Bool) (views : List (Obs Y)) : Problem M Y :=
  ⟨[], views.map pnp, camDvs 0 intrinsicsActive distortionActive ++ (List.range views.length).flatMap poseDvs,
    views.zipIdx.flatMap fun v => termsOf n 0 v.2 v.1⟩

/-! ## `solveFullBatch` -/

/-- `len(obs.getCornersIdx())`. -/
def numCorners (n : Nat) (o : Obs Y) : Nat := ((List.range n).filter fun i => (o i).isSome).length

/-- CI.py 283-289: the variables of the baselines. -/
def baseDvs (i : Nat) : List (Dv × Bool) := [(.baseQ i, true), (.baseT i, true)]

/-- CI.py 309-327: the terms of one view; a camera or a baseline that is not there is an `IndexError`. -/
def viewTerms (n numCams view : Nat) (obs : List (Nat × Obs Y)) : Out (List (Term Y)) :=
  obs.foldlM (fun acc x => if x.1 < numCams then .ok (acc ++ termsOf n x.1 view x.2) else .raise) []

/-- CI.py 278-289: the first baselines; one that is not there is an `IndexError`. -/
def firstBaseline (guesses : List M) (i : Nat) : Out M :=
  match guesses[i]? with
  | some b => .ok b
  | none => .raise

/-- CI.py 272-327: the problem of all the cameras; a view is the list of its cameras with what they see. -/
def batchProblem (pnp : Nat → Obs Y → M) (n numCams : Nat) (guesses : List M) (views : List (List (Nat × Obs Y))) : Out (Problem M Y) := do
  let baselines ← (List.range (numCams - 1)).mapM (firstBaseline guesses)
  let poses ← views.mapM fun v => App.targetPoseGuess (v.map fun x => (x.1, numCorners n x.2))
    (fun c => ((v.find? fun x => x.1 == c).map fun x => pnp c x.2).getD 1) guesses
  let terms ← views.zipIdx.mapM fun v => viewTerms n numCams v.2 v.1
  return ⟨baselines, poses,
    (List.range numCams).flatMap (fun c => camDvs c true true) ++ (List.range (numCams - 1)).flatMap baseDvs ++
      (List.range views.length).flatMap poseDvs, terms.flatten⟩

end Kalibr.Init
