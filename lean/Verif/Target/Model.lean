import Mathlib.Data.Real.Sqrt
import Mathlib.Data.List.Sort
import Verif.Common
import Verif.Tactics

/-!
# Model of the calibration targets, their observations and the target detector

Sources, below `/repo/aslam_cv`:
`aslam_cameras/src/GridCalibrationTargetBase.cpp` (Base),
`aslam_cameras/src/GridCalibrationTargetCheckerboard.cpp` (Checkerboard),
`aslam_cameras/src/GridCalibrationTargetCirclegrid.cpp` (Circlegrid),
`aslam_cameras_april/src/GridCalibrationTargetAprilgrid.cpp` (Aprilgrid),
`aslam_cameras/src/GridCalibrationTargetObservation.cpp` (Observation),
`aslam_cameras/src/GridDetector.cpp` (Detector) and
`aslam_cv_backend/src/GridCalibrationTargetDesignVariableContainer.cpp` (Container).

Coordinates are exact reals, so the conversions to single precision of `cv::Point2f` and `cv::Point3f`
are the identity.  Indices are natural numbers; overflow of `rows * cols` is not modelled.  Reading or
writing a row outside a matrix, or an element outside a vector, is the outcome `ub`.  OpenCV's corner
extraction, subpixel refinement, pose estimation and all drawing are parameters or left out.
-/

namespace Kalibr.Target

abbrev P2 := ℝ × ℝ
abbrev P3 := ℝ × ℝ × ℝ

/-- Base.hpp:98-105: the members of a target.  `pts` are the rows of `_points`. -/
structure Target where
  rows : ℕ
  cols : ℕ
  pts : List P3

/-- Base.hpp:46-48 `size`. -/
def Target.size (t : Target) : ℕ := t.rows * t.cols

/-- Reading row or element `i`: undefined outside. -/
def readAt {α : Type} (l : List α) (i : ℕ) : Out α :=
  match l[i]? with
  | some a => .ok a
  | none => .ub

/-- Writing row or element `i`: undefined outside. -/
def writeAt {α : Type} (l : List α) (i : ℕ) (a : α) : Out (List α) :=
  if i < l.length then .ok (l.set i a) else .ub

/-- Base.cpp:18-20 `point`. -/
def Target.point (t : Target) (i : ℕ) : Out P3 := readAt t.pts i

/-- The C++ conversion `(int) i` of a `size_t`, converted back to `size_t` by the division that
follows it (Base.cpp:24): the low 32 bits, sign extended to 64 bits. -/
def intCast (i : ℕ) : ℕ :=
  let lo := i % 2 ^ 32
  if lo < 2 ^ 31 then lo else 2 ^ 64 - 2 ^ 32 + lo

/-- Base.cpp:23-25 `pointToGridCoordinates`.  Division by zero is undefined. -/
def Target.pointToGridCoordinates (t : Target) (i : ℕ) : Out (ℕ × ℕ) :=
  if t.cols = 0 then .ub else .ok (i % t.cols, intCast i / t.cols)

/-- Base.cpp:28-30 `gridCoordinatesToPoint`. -/
def Target.gridCoordinatesToPoint (t : Target) (r c : ℕ) : ℕ := t.cols * r + c

/-- Base.cpp:34-36 `gridPoint`. -/
def Target.gridPoint (t : Target) (r c : ℕ) : Out P3 := readAt t.pts (t.gridCoordinatesToPoint r c)

/-- `size() - 1` in `size_t`: wraps around for an empty target. -/
def sizeMinusOne (n : ℕ) : ℕ := if n = 0 then 2 ^ 64 - 1 else n - 1

/-- Base.cpp:38-41 `getPointDataPointer`; the pointer is represented by the index of the row it points
to.  `SM_ASSERT_LT(a, b)` raises when `a >= b`. -/
def Target.getPointDataPointer (t : Target) (i : ℕ) : Out ℕ :=
  if sizeMinusOne t.size ≥ i then .raise
  else if i < t.pts.length then .ok i else .ub

/-- Container.cpp:5-16: the constructor maps every point of the target. -/
def container (t : Target) : Out (List ℕ) :=
  (List.range t.size).foldlM (fun acc i => do .ok (acc ++ [← t.getPointDataPointer i])) []

/-- The double loop all targets use to write their points: Checkerboard.cpp:69-74,
Circlegrid.cpp:40-57, Aprilgrid.cpp:79-92.  `mem` is the content of `_points` before. -/
def fillPoints (rows cols : ℕ) (f : ℕ → ℕ → P3) (mem : List P3) : Out (List P3) :=
  (List.range rows).foldlM (fun m r =>
    (List.range cols).foldlM (fun m c => writeAt m (cols * r + c) (f r c)) m) mem

/-- Checkerboard.cpp:72-73: one point. -/
def checkerPoint (rowSpacing colSpacing : ℝ) (r c : ℕ) : P3 := (rowSpacing * r, colSpacing * c, 0)

/-- Checkerboard.cpp:27-46: the constructor.  `mem` is the freshly allocated storage. -/
noncomputable def checkerboard (rows cols : ℕ) (rowSpacing colSpacing : ℝ) (mem : List P3) :
    Out Target :=
  if ¬ rowSpacing > 0 then .raise
  else if ¬ colSpacing > 0 then .raise
  else do .ok ⟨rows, cols, ← fillPoints rows cols (checkerPoint rowSpacing colSpacing) mem⟩

/-- Circlegrid.cpp:51 and 56: one point of the asymmetric and of the symmetric grid. -/
def circlePoint (asym : Bool) (spacing : ℝ) (r c : ℕ) : P3 :=
  if asym then (((2 * c + r % 2 : ℕ) : ℝ) * spacing, r * spacing, 0)
  else (spacing * r, spacing * c, 0)

/-- Circlegrid.cpp:12-27 and 39-58: the constructor; the points are first written as a symmetric grid
and then overwritten. -/
noncomputable def circlegrid (rows cols : ℕ) (spacing : ℝ) (asym : Bool) (mem : List P3) :
    Out Target :=
  if ¬ spacing > 0 then .raise
  else do
    let m ← fillPoints rows cols (circlePoint false spacing) mem
    .ok ⟨rows, cols, ← fillPoints rows cols (circlePoint asym spacing) m⟩

/-- Aprilgrid.cpp:83-88: one point. -/
noncomputable def aprilPoint (tagSize tagSpacing : ℝ) (r c : ℕ) : P3 :=
  (((c / 2 : ℕ) : ℝ) * (1 + tagSpacing) * tagSize + ((c % 2 : ℕ) : ℝ) * tagSize,
   ((r / 2 : ℕ) : ℝ) * (1 + tagSpacing) * tagSize + ((r % 2 : ℕ) : ℝ) * tagSize, 0)

/-- Aprilgrid.cpp:29-48: the constructor, four points per tag. -/
noncomputable def aprilgrid (tagRows tagCols : ℕ) (tagSize tagSpacing : ℝ) (mem : List P3) :
    Out Target :=
  if ¬ tagSize > 0 then .raise
  else if ¬ tagSpacing > 0 then .raise
  else do
    .ok ⟨2 * tagRows, 2 * tagCols,
      ← fillPoints (2 * tagRows) (2 * tagCols) (aprilPoint tagSize tagSpacing) mem⟩

/-! ## Observations -/

/-- Observation.hpp:138-160: the members of an observation; images and time stamps are left out.
`pose` is `_T_t_c` together with `_T_t_c_isSet`. -/
structure Obs (T : Type) where
  target : Option Target
  pts : List P2
  success : List Bool
  pose : Option T

variable {T : Type}

/-- Observation.cpp:28-36 `setTarget`; `none` is the null pointer. -/
def Obs.setTarget (o : Obs T) (t : Option Target) : Out (Obs T) :=
  match t with
  | none => .raise
  | some t => .ok { o with
      target := some t
      pts := List.replicate t.size (0, 0)
      success := List.replicate t.size false }

/-- Observation.cpp:17-23: the constructor. -/
def Obs.new (t : Option Target) : Out (Obs T) := Obs.setTarget ⟨none, [], [], none⟩ t

/-- Observation.cpp:148-157 `updateImagePoint`. -/
def Obs.updateImagePoint (o : Obs T) (i : ℕ) (p : P2) : Out (Obs T) :=
  if o.target.isNone then .raise
  else if i ≥ o.success.length then .raise
  else do .ok { o with pts := ← writeAt o.pts i p, success := ← writeAt o.success i true }

/-- Observation.cpp:160-166 `removeImagePoint`. -/
def Obs.removeImagePoint (o : Obs T) (i : ℕ) : Out (Obs T) :=
  if o.target.isNone then .raise
  else if i ≥ o.success.length then .raise
  else do .ok { o with success := ← writeAt o.success i false }

/-- Observation.cpp:168-176 `imagePoint`: the point and whether it was observed. -/
def Obs.imagePoint (o : Obs T) (i : ℕ) : Out (P2 × Bool) :=
  if o.target.isNone then .raise
  else if i ≥ o.success.length then .raise
  else do .ok (← readAt o.pts i, ← readAt o.success i)

/-- Observation.cpp:180-184 `imageGridPoint`. -/
def Obs.imageGridPoint (o : Obs T) (r c : ℕ) : Out (P2 × Bool) :=
  match o.target with
  | none => .raise
  | some t => o.imagePoint (t.gridCoordinatesToPoint r c)

/-- Observation.cpp:39-62 `getCornersTargetFrame`: the list and the returned count. -/
def Obs.getCornersTargetFrame (o : Obs T) : Out (List P3 × ℕ) :=
  match o.target with
  | none => .raise
  | some t =>
    (List.range t.size).foldlM (fun (acc : List P3 × ℕ) i => do
      if ← readAt o.success i then
        let p ← t.point i
        .ok (acc.1 ++ [(p.1, p.2.1, 0)], acc.2 + 1)
      else .ok acc) ([], 0)

/-- Observation.cpp:66-93 `getCornersImageFrame`: the list and the returned count. -/
def Obs.getCornersImageFrame (o : Obs T) : Out (List P2 × ℕ) :=
  match o.target with
  | none => .raise
  | some t =>
    (List.range t.size).foldlM (fun (acc : List P2 × ℕ) i => do
      if ← readAt o.success i then
        let p ← o.imagePoint i
        .ok (acc.1 ++ [p.1], acc.2 + 1)
      else .ok acc) ([], 0)

/-- Observation.cpp:131-145 `getCornersIdx`: the list and the returned count. -/
def Obs.getCornersIdx (o : Obs T) : Out (List ℕ × ℕ) :=
  match o.target with
  | none => .raise
  | some t => do
    let l ← (List.range t.size).foldlM (fun (acc : List ℕ) i => do
      if ← readAt o.success i then .ok (acc ++ [i]) else .ok acc) []
    .ok (l, l.length)

/-- Observation.cpp:97-126 `getCornerReprojection`; `project T p` is the image of target point `p` for a
camera at `T` (the camera's projection is a parameter). -/
def Obs.getCornerReprojection (o : Obs T) (project : T → P3 → P2) : Out (List P2 × ℕ) :=
  match o.pose with
  | none => .raise
  | some T => do
    let (tp, n) ← o.getCornersTargetFrame
    (List.range n).foldlM (fun (acc : List P2 × ℕ) i => do
      let p ← readAt tp i
      .ok (acc.1 ++ [project T p], acc.2 + 1)) ([], 0)

/-- Observation.cpp:196-203 `hasSuccessfulObservation`. -/
def Obs.hasSuccessfulObservation (o : Obs T) : Bool := o.success.any id

/-! ## The detector -/

/-- Detector.hpp:23-50: the options that affect the result. -/
structure DetectorOptions where
  filterCornerOutliers : Bool
  sigma : ℝ
  minReprojError : ℝ

/-- Detector.cpp:90-112 `findTargetNoTransformation`, given the result of the corner extraction:
success, the rows of the corner matrix and the flags. -/
def findTargetNoTransformation (t : Target) (extracted : Bool × List P2 × List Bool) (o : Obs T) :
    Out (Bool × Obs T) := do
  let o ← o.setTarget (some t)
  let o ← (List.range extracted.2.1.length).foldlM (fun (o : Obs T) i => do
    if ← readAt extracted.2.2 i then
      let p ← readAt extracted.2.1 i
      o.updateImagePoint i p
    else .ok o) o
  .ok (extracted.1, o)

/-- Detector.cpp:140-147: the error norms of the detected corners. -/
noncomputable def errorNorms (n : ℕ) (detected reproj : List P2) : Out (List ℝ) :=
  (List.range n).foldlM (fun (acc : List ℝ) i => do
    let d ← readAt detected i
    let r ← readAt reproj i
    let ex := d.1 - r.1
    let ey := d.2 - r.2
    .ok (acc ++ [√(ex * ex + ey * ey)])) []

/-- Detector.cpp:150: the mean. -/
noncomputable def meanOf (l : List ℝ) : ℝ := l.sum / l.length

/-- Detector.cpp:151-158: the standard deviation. -/
noncomputable def stdOf (l : List ℝ) : ℝ :=
  √((l.map fun e => (e - meanOf l) * (e - meanOf l)).sum / l.length)

open Classical in
/-- Detector.cpp:131-179: the outlier filter. -/
noncomputable def filterOutliers (opt : DetectorOptions) (project : T → P3 → P2) (o : Obs T) :
    Out (Obs T) := do
  let (reproj, _) ← o.getCornerReprojection project
  let (detected, n) ← o.getCornersImageFrame
  let err ← errorNorms n detected reproj
  let (idx, _) ← o.getCornersIdx
  (List.range detected.length).foldlM (fun (o : Obs T) i => do
    let e ← readAt err i
    if e > meanOf err + opt.sigma * stdOf err ∧ e > opt.minReprojError then
      let k ← readAt idx i
      o.removeImagePoint k
    else .ok o) o

/-- Detector.cpp:114-209 `findTarget`; `estimate` is the camera's pose estimation. -/
noncomputable def findTarget (opt : DetectorOptions) (t : Target)
    (extracted : Bool × List P2 × List Bool) (estimate : Obs T → Option T)
    (project : T → P3 → P2) (o : Obs T) : Out (Bool × Obs T) := do
  let (success, o) ← findTargetNoTransformation t extracted o
  if success then
    match estimate o with
    | none => .ok (false, o)
    | some T =>
      let o := { o with pose := some T }
      if opt.filterCornerOutliers then .ok (true, ← filterOutliers opt project o)
      else .ok (true, o)
  else .ok (false, o)

/-! ## Extraction of an April grid -/

/-- The detected tags: aslam_apriltag2/TagDetection.h; only the identifier, the flag `good` and the
four corners matter here. -/
structure Det where
  id : ℤ
  good : Bool
  p : Fin 4 → P2

/-- Aprilgrid.hpp: the options that affect the result. -/
structure AprilOptions where
  minBorderDistance : ℝ
  minTagsForValidObs : ℕ
  maxSubpixDisplacement2 : ℝ
  doSubpixRefinement : Bool

/-- Result of the extraction: the process ends, nothing was written, or both outputs were written. -/
inductive AprilResult where
  | exit
  | failed
  | done (pts : List P2) (observed : List Bool)

/-- Aprilgrid.cpp:113-131: whether a detection is removed. -/
def Det.removed (o : AprilOptions) (imgCols imgRows : ℝ) (numTags : ℕ) (d : Det) : Prop :=
  (∃ j, (d.p j).1 < o.minBorderDistance ∨ (d.p j).1 > imgCols - o.minBorderDistance ∨
    (d.p j).2 < o.minBorderDistance ∨ (d.p j).2 > imgRows - o.minBorderDistance) ∨
  ¬ d.good ∨ d.id ≥ numTags

/-- Aprilgrid.cpp:155-190: some two neighbours of the sorted detections have the same identifier. -/
def hasDup : List Det → Bool
  | a :: b :: l => a.id = b.id || hasDup (b :: l)
  | _ => false

/-- Aprilgrid.cpp:292-295: the grid indices of the four corners of a tag. -/
def cornerIdx (cols tagId : ℕ) : Fin 4 → ℕ :=
  let baseId := tagId / (cols / 2) * cols * 2 + tagId % (cols / 2) * 2
  ![baseId, baseId + 1, baseId + cols + 1, baseId + cols]

/-- `vector::resize(n, false)`: existing elements are kept. -/
def resizeFlags (l : List Bool) (n : ℕ) : List Bool :=
  l.take n ++ List.replicate (n - l.length) false

open Classical in
/-- Aprilgrid.cpp:298-320: the four corners of one tag.  A negative identifier is undefined behaviour:
it is converted to a huge unsigned index. -/
noncomputable def writeTag (o : AprilOptions) (cols : ℕ) (refine : P2 → P2)
    (s : List P2 × List Bool) (d : Det) : Out (List P2 × List Bool) :=
  if d.id < 0 then .ub
  else (List.finRange 4).foldlM (fun (s : List P2 × List Bool) j => do
    let raw := d.p j
    let c := if o.doSubpixRefinement then refine raw else raw
    let disp := (c.1 - raw.1) * (c.1 - raw.1) + (c.2 - raw.2) * (c.2 - raw.2)
    let k := cornerIdx cols d.id.toNat j
    .ok (← writeAt s.1 k c, ← writeAt s.2 k (decide (disp ≤ o.maxSubpixDisplacement2)))) s

open Classical in
/-- Aprilgrid.cpp:95-326 `computeObservation`, given the detected tags.  `pts0` is the content of the
resized point matrix and `flags0` the flags the caller passes in.  `std::sort` is modelled by a merge
sort; the two differ only in the order of equal identifiers, and equal identifiers end the process.
`(int) size() / 4` is modelled for sizes below `2^31`. -/
noncomputable def aprilObservation (t : Target) (o : AprilOptions) (imgCols imgRows : ℝ)
    (refine : P2 → P2) (dets : List Det) (pts0 : List P2) (flags0 : List Bool) : Out AprilResult :=
  let kept := dets.filter fun d => ¬ d.removed o imgCols imgRows (t.size / 4)
  if kept.length < o.minTagsForValidObs then .ok .failed
  else
    let sorted := kept.mergeSort (fun a b => decide (a.id ≤ b.id))
    if hasDup sorted then .ok .exit
    else do
      let s ← sorted.foldlM (writeTag o t.cols refine) (pts0, resizeFlags flags0 t.size)
      .ok (.done s.1 s.2)

end Kalibr.Target
