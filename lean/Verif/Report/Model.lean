import Verif.Common
import Verif.Tactics
import Mathlib.Data.List.Nodup
import Mathlib.Analysis.SpecialFunctions.Sqrt

/-!
# Model of the reports about a calibration

Sources, in `/repo/aslam_offline_calibration/kalibr/python/`: `kalibr_camera_calibration/CameraCalibrator.py` (cited as `CC`) and
`kalibr_imu_camera_calibration/IccUtil.py` (cited as `IccUtil`).

Simplifications: real numbers; what is drawn in a figure is not modelled, a figure is its number.
-/

namespace Kalibr.Report

/-! ## Uncertainties -/

/-- The sizes of the parameters of a camera: `minimalDimensionsDistortion`, `minimalDimensionsProjection`, `minimalDimensionsShutter`. -/
structure Dims where
  dist : Nat
  proj : Nat
  shutter : Nat

/-- One number that is estimated. -/
inductive Param
  | baselineQ (b i : Nat)
  | baselineT (b i : Nat)
  | dist (c i : Nat)
  | proj (c i : Nat)
  deriving DecidableEq

/-- The order of the estimated numbers: the design variables of the calibration group that are active, in the order in which
`fromTargetViewObservations` adds them, CC 161-181 (the variable of the shutter is not active, CC 178). -/
def theta (cams : List Dims) : List Param :=
  ((List.range (cams.length - 1)).flatMap fun b => (List.range 3).map (.baselineQ b) ++ (List.range 3).map (.baselineT b)) ++
  (cams.zipIdx.flatMap fun d => (List.range d.1.dist).map (.dist d.2) ++ (List.range d.1.proj).map (.proj d.2))

/-- `np.array(l).reshape(rows, 6)`, CC 564. -/
def reshape6 {α : Type} (l : List α) (rows : Nat) : Out (List (List α)) :=
  if l.length = rows * 6 then .ok ((List.range rows).map fun r => (l.drop (6 * r)).take 6) else .raise

/-- The loop over the cameras, CC 570-577. -/
def splitCams {α : Type} (l : List α) : List Dims → Nat → List (List α)
  | [], _ => []
  | d :: ds, offset => (l.drop offset).take (d.dist + d.proj + d.shutter) :: splitCams l ds (offset + (d.dist + d.proj + d.shutter))

/-- `recoverCovariance`, CC 548-577; `stds` are the square roots of the diagonal of the covariance. -/
def recoverCovariance {α : Type} (cams : List Dims) (stds : List α) : Out (List (List α) × List (List α)) :=
  (reshape6 (stds.take (6 * (cams.length - 1))) (cams.length - 1)).bind fun b =>
    .ok (b, splitCams (stds.drop (6 * (cams.length - 1))) cams 0)

/-- What is printed of a camera: the uncertainties of distortion and projection, CC 588-589. -/
def printedCamera {α : Type} (d : Dims) (std : List α) : List α × List α := (std.take d.dist, std.drop d.dist)

/-- What is printed of a baseline: the uncertainties of rotation and translation, CC 608-609. -/
def printedBaseline {α : Type} (std : List α) : List α × List α := (std.take 3, (std.drop 3).take 3)

/-! ## Statistics of the reprojection errors -/

/-- `np.mean(rerr_matrix, 0)`: for no rows the result is not a number. -/
noncomputable def mean (l : List ℝ) : Option ℝ := if l = [] then none else some (l.sum / l.length)

/-- `np.std(rerr_matrix, 0)`. -/
noncomputable def std (l : List ℝ) : Option ℝ :=
  (mean l).map fun m => √((l.map fun x => (x - m) ^ 2).sum / l.length)

/-- `getReprojectionErrorStatistics`, CC 355-377: for each view nothing if the camera does not see the target, else for each corner nothing if it was
not seen; one coordinate. -/
noncomputable def errorStatistics (rerrs : List (Option (List (Option ℝ)))) : Out (Option ℝ × Option ℝ) :=
  if ¬ rerrs.length > 0 then .raise
  else
    let matrix := rerrs.foldl (fun acc view =>
      match view with
      | none => acc
      | some v => v.foldl (fun acc r => match r with | none => acc | some e => acc ++ [e]) acc) []
    .ok (mean matrix, std matrix)

/-! ## Reports -/

/-- The pages of text, IccUtil 109-141. -/
def pages {Line : Type} (linesPerPage : Nat) (text : List Line) : List (List Line) :=
  if h : text.length > linesPerPage ∧ 0 < linesPerPage then text.take linesPerPage :: pages linesPerPage (text.drop linesPerPage) else [text]
termination_by text.length
decreasing_by simp; omega

/-- `f = pl.figure(offset + i)` and `offset += n`, IccUtil 145-149: the numbers of the figures and the offset. -/
def figure (s : List Nat × Nat) (i n : Nat) : List Nat × Nat := (s.1 ++ [s.2 + i], s.2 + n)

/-- The figures of text, IccUtil 113-115. -/
def textFigures (n : Nat) (s : List Nat × Nat) : List Nat × Nat := (List.range n).foldl (fun s (_ : Nat) => figure s 0 1) s

/-- The six figures of an inertial sensor, IccUtil 144-179. -/
def imuFigures (n : Nat) (s : List Nat × Nat) (i : Nat) : List Nat × Nat := (List.range 6).foldl (fun s (_ : Nat) => figure s i n) s

/-- The numbers of all figures of the report, IccUtil 101-190. -/
def iccFigures {Line : Type} (text : List Line) (imus cams : Nat) : List Nat :=
  let s := textFigures (pages 40 text).length ([], 3010)
  let s := (List.range imus).foldl (imuFigures imus) s
  ((List.range cams).foldl (fun s i => figure s i cams) s).1

/-- The numbers of the figures of the report about cameras, CC 740-783; a graph is given and outliers were removed if `graph`, `outliers` are true. -/
def camFigures (cams : Nat) (graph outliers : Bool) : List Nat :=
  (if graph then [1001] else []) ++ (if cams > 1 then [1002] else []) ++
  ((List.range cams).flatMap fun c => [c * 10 + 1, c * 10 + 2, c * 10 + 3]) ++ (if outliers then [1003] else [])

end Kalibr.Report
