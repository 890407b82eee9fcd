import Verif.FMap
import Verif.Common

/-!
# The configuration files of the camera calibration (C127)

`aslam_offline_calibration/kalibr/python/kalibr_common/ConfigReader.py` (cited as `CR.py`) 11-175, 252-366, 517-640 and 647-745,
and `kalibr_camera_calibration/CameraCalibrator.py` (cited as `CC.py`) 653-706.

A number of a YAML file is an integer or a float, and Python tells them apart; floats are exact. Writing and reading the YAML text
itself is taken to be the identity. The key `cam{n}` of a chain stands as `n`. Not modelled: printing, the topics, NaN, and that a
Python `bool` is an `int`.
-/

namespace Kalibr.App.Config

/-- The exceptions: `RuntimeError`, `NameError`, `KeyError`, `IndexError`. -/
inductive Exn
  | runtime
  | name
  | key
  | index
  deriving DecidableEq, Repr

abbrev Py (α : Type) := Except Exn α

/-- A number of a YAML file. -/
inductive Num
  | int (z : ℤ)
  | flt (q : ℚ)
  deriving DecidableEq

/-- The value of a number. -/
def Num.val : Num → ℚ
  | .int z => z
  | .flt q => q

/-- `isinstance(x, float)`. -/
def Num.isFloat : Num → Bool
  | .flt _ => true
  | _ => false

/-- `isinstance(x, int)`. -/
def Num.isInt : Num → Bool
  | .int _ => true
  | _ => false

/-- The dictionary of a camera. `M` are the transformations. -/
structure CamDict (M : Type) where
  camera_model : Option String := none
  intrinsics : Option (List Num) := none
  distortion_model : Option String := none
  distortion_coeffs : Option (List Num) := none
  resolution : Option (List Num) := none
  T_cn_cnm1 : Option M := none
  T_cam_imu : Option M := none
  timeshift : Option Num := none
  cam_overlaps : Option (List Nat) := none
  deriving DecidableEq

variable {M : Type}

/-- CR.py 317-321: the focal lengths and the principal point. A place that is not there is an `IndexError`. -/
def checkFocal (f p : List Num) : Py Unit :=
  match f[0]?, f[1]?, p[0]?, p[1]? with
  | some f0, some f1, some p0, some p1 =>
    if !f0.isFloat || !f1.isFloat || decide (f0.val < 0) || decide (f1.val < 0) then .error .runtime
    else if decide (p0.val < 0) || decide (p1.val < 0) || !p0.isFloat || !p1.isFloat then .error .runtime
    else .ok ()
  | _, _, _, _ => .error .index

/-- CR.py 257-321, `checkIntrinsics`. -/
def checkIntrinsics (model : String) (v : List Num) : Py Unit :=
  if model = "pinhole" then
    if v.length ≠ 4 then .error .runtime else checkFocal (v.take 2) ((v.drop 2).take 2)
  else if model = "omni" then
    if v.length ≠ 5 then .error .runtime
    else if (v.getD 0 (.int 0)).val < 0 then .error .runtime
    else checkFocal ((v.drop 1).take 2) ((v.drop 3).take 2)
  else if model = "ds" then
    if v.length ≠ 6 then .error .runtime
    else if (v.getD 1 (.int 0)).val < 0 ∨ (v.getD 1 (.int 0)).val ≥ 1 then .error .runtime
    else checkFocal ((v.drop 2).take 2) ((v.drop 4).take 2)
  else if model = "eucm" then
    if v.length ≠ 6 then .error .runtime
    else if (v.getD 0 (.int 0)).val < 0 ∨ (v.getD 0 (.int 0)).val ≥ 1 then .error .runtime
    else if (v.getD 1 (.int 0)).val < 0 then .error .runtime
    else checkFocal ((v.drop 2).take 2) ((v.drop 4).take 2)
  else .error .runtime

/-- A field that is missing is a `KeyError`, which `catch_keyerror` (CR.py 178-186) turns into a `RuntimeError`. -/
def field {α : Type} (x : Option α) : Py α :=
  match x with
  | none => .error .runtime
  | some a => .ok a

/-- CR.py 323-328. -/
def getIntrinsics (d : CamDict M) : Py (String × List Num) := do
  let m ← field d.camera_model
  let v ← field d.intrinsics
  checkIntrinsics m v
  return (m, v)

/-- CR.py 330-334. -/
def setIntrinsics (d : CamDict M) (model : String) (v : List Num) : Py (CamDict M) := do
  checkIntrinsics model v
  return { d with camera_model := some model, intrinsics := some (v.map fun x => .flt x.val) }

/-- CR.py 338-341: the number of the coefficients. -/
def distParams (model : String) : Option Nat :=
  if model = "radtan" then some 4 else if model = "equidistant" then some 4 else if model = "fov" then some 1
  else if model = "none" then some 0 else none

/-- CR.py 337-350. -/
def checkDistortion (model : String) (v : List Num) : Py Unit :=
  match distParams model with
  | none => .error .runtime
  | some n => if v.length ≠ n then .error .runtime else .ok ()

/-- CR.py 352-356. -/
def getDistortion (d : CamDict M) : Py (String × List Num) := do
  let m ← field d.distortion_model
  let v ← field d.distortion_coeffs
  checkDistortion m v
  return (m, v)

/-- CR.py 358-361. -/
def setDistortion (d : CamDict M) (model : String) (v : List Num) : Py (CamDict M) := do
  checkDistortion model v
  return { d with distortion_model := some model, distortion_coeffs := some (v.map fun x => .flt x.val) }

/-- CR.py 364-366. -/
def checkResolution (v : List Num) : Py Unit :=
  match v with
  | [a, b] => if a.isInt && b.isInt then .ok () else .error .runtime
  | _ => .error .runtime

/-- CR.py 368-371. -/
def getResolution (d : CamDict M) : Py (List Num) := do
  let v ← field d.resolution
  checkResolution v
  return v

/-- CR.py 373-375. -/
def setResolution (d : CamDict M) (v : List Num) : Py (CamDict M) := do
  checkResolution v
  return { d with resolution := some v }

/-- The classes of the camera geometry. -/
inductive Cls
  | pinhole
  | distortedPinhole
  | equidistantPinhole
  | fovPinhole
  | omni
  | distortedOmni
  | eucm
  | ds
  deriving DecidableEq

/-- A camera geometry: its parameters in the order of the constructor, its distortion, and its size. -/
structure Geometry where
  cls : Cls
  intrinsics : List ℚ
  distortion : List ℚ
  size : ℚ × ℚ
  deriving DecidableEq

/-- The numbers in these places; one that is missing is an `IndexError`. -/
def places (v : List Num) (l : List Nat) : Py (List ℚ) :=
  l.mapM fun i => match v[i]? with
    | none => .error Exn.index
    | some x => .ok x.val

/-- The geometry that is made, CR.py 19-168. -/
def build (cls : Cls) (iv dv : List Num) (ni nd : Nat) (res : List Num) : Py (Option Geometry) := do
  let d ← places dv (List.range nd)
  let i ← places iv (List.range ni)
  let r ← places res [0, 1]
  return some ⟨cls, i, d, (r.getD 0 0, r.getD 1 0)⟩

/-- CR.py 11-166, `AslamCamera`. `none`: there is no attribute `geometry`. -/
def aslamCamera (model : String) (iv : List Num) (dist : String) (dv : List Num) (res : List Num) : Py (Option Geometry) :=
  if model = "pinhole" then
    if dist = "radtan" then build .distortedPinhole iv dv 4 4 res
    else if dist = "equidistant" then build .equidistantPinhole iv dv 4 4 res
    else if dist = "fov" then build .fovPinhole iv dv 4 1 res
    else if dist = "none" then do
      let _ ← build .pinhole iv dv 4 0 res
      return none
    else .error .name
  else if model = "omni" then
    if dist = "radtan" then build .distortedOmni iv dv 5 4 res
    else if dist = "equidistant" then .error .runtime
    else if dist = "none" then build .omni iv dv 5 0 res
    else .error .runtime
  else if model = "eucm" then
    if dist = "none" then build .eucm iv dv 6 0 res else .error .runtime
  else if model = "ds" then
    if dist = "none" then build .ds iv dv 6 0 res else .error .runtime
  else .error .runtime

/-- CR.py 168-174, `fromParameters`. -/
def fromParameters (d : CamDict M) : Py (Option Geometry) := do
  let (m, iv) ← getIntrinsics d
  let (dm, dv) ← getDistortion d
  let res ← getResolution d
  aslamCamera m iv dm dv res

/-- A chain of cameras. -/
abbrev Chain (M : Type) := FMap Nat (CamDict M)

/-- CR.py 659-664, `addCameraAtEnd`. -/
def addCameraAtEnd (c : Chain M) (d : CamDict M) : Chain M := FMap.set c c.length d

/-- CR.py 666-673, `getCameraParameters`. -/
def getCameraParameters (c : Chain M) (n : Nat) : Py (CamDict M) :=
  if n ≥ c.length then .error .runtime else field (FMap.find c n)

/-- A change of an entry; an entry that is not there is a `KeyError`. -/
def modify (c : Chain M) (n : Nat) (f : CamDict M → CamDict M) : Py (Chain M) :=
  match FMap.find c n with
  | none => .error .key
  | some d => .ok (FMap.set c n (f d))

/-- CR.py 675-681, `setExtrinsicsLastCamToHere`. -/
def setExtrinsics (c : Chain M) (n : Nat) (T : M) : Py (Chain M) :=
  if n = 0 then .error .runtime else modify c n fun d => { d with T_cn_cnm1 := some T }

/-- CR.py 683-697, `getExtrinsicsLastCamToHere`. -/
def getExtrinsics (c : Chain M) (n : Nat) : Py M :=
  if n = 0 then .error .runtime
  else if n ≥ c.length then .error .runtime
  else match FMap.find c n with
    | none => .error .runtime
    | some d => field d.T_cn_cnm1

/-- CR.py 724-736, `checkCamOverlaps` and `setCamOverlaps`. -/
def setCamOverlaps (c : Chain M) (n : Nat) (l : List Nat) : Py (Chain M) :=
  if n ≥ c.length then .error .runtime
  else if l.any fun i => decide (i ≥ c.length) then .error .runtime
  else modify c n fun d => { d with cam_overlaps := some l }

/-! ## `saveChainParametersYaml` -/

/-- CC.py 654-660. -/
def cameraModel : Cls → Option String
  | .distortedPinhole => some "pinhole"
  | .equidistantPinhole => some "pinhole"
  | .fovPinhole => some "pinhole"
  | .omni => some "omni"
  | .distortedOmni => some "omni"
  | .eucm => some "eucm"
  | .ds => some "ds"
  | .pinhole => none

/-- CC.py 661-667. -/
def distortionModel : Cls → Option String
  | .distortedPinhole => some "radtan"
  | .equidistantPinhole => some "equidistant"
  | .fovPinhole => some "fov"
  | .omni => some "none"
  | .distortedOmni => some "radtan"
  | .eucm => some "none"
  | .ds => some "none"
  | .pinhole => none

/-- A camera of the calibrator: its geometry has the parameters in the order of CC.py 681-688, and the size in whole pixels. -/
structure CalCam where
  cls : Cls
  intrinsics : List ℚ
  distortion : List ℚ
  width : ℤ
  height : ℤ

/-- CC.py 670-693: the dictionary of a camera. -/
def saveCam (cam : CalCam) : Py (CamDict M) :=
  match cameraModel cam.cls, distortionModel cam.cls with
  | some m, some dm => do
    let d ← setIntrinsics {} m (cam.intrinsics.map .flt)
    let d ← setResolution d [.int cam.width, .int cam.height]
    setDistortion d dm (cam.distortion.map .flt)
  | _, _ => .error .key

/-- CC.py 653-706, `saveChainParametersYaml`: what is written to the file; `overlaps` are those of the graph. -/
def saveChain (cams : List CalCam) (overlaps : Nat → List Nat) (baselines : List M) : Py (Chain M) := do
  let c ← cams.foldlM (fun (c : Chain M) cam => do
    let d ← saveCam cam
    return addCameraAtEnd c d) []
  let c ← (List.range cams.length).foldlM (fun c i => setCamOverlaps c i (overlaps i)) c
  (List.range baselines.length).foldlM (fun c b =>
    match baselines[b]? with
    | none => .error Exn.index
    | some T => setExtrinsics c (b + 1) T) c

/-! ## The target -/

/-- CR.py 549-555: the parameters of a checkerboard, if they are all there. The other targets have the same form. -/
structure Target where
  rows : Num
  cols : Num
  a : Num
  b : Num
  deriving DecidableEq

/-- CR.py 556-571 and 605-620: a check that fails calls `errList.append`, and there is no `errList`. -/
def getTargetParams (t : Target) : Py Target :=
  if !t.rows.isInt || decide (t.rows.val < 3) then .error .name
  else if !t.cols.isInt || decide (t.cols.val < 3) then .error .name
  else if !t.a.isFloat || decide (t.a.val ≤ 0) then .error .name
  else if !t.b.isFloat || decide (t.b.val ≤ 0) then .error .name
  else .ok t

/-! ## Sets of inertial measurement units -/

/-- CR.py 515-524. -/
structure ImuSet (D : Type) where
  data : FMap String D
  count : Nat

/-- CR.py 520-524, `addImuParameters`. -/
def addImu {D : Type} (s : ImuSet D) (d : D) (name : Option String) : ImuSet D :=
  ⟨FMap.set s.data (name.getD (s!"imu{s.count}")) d, s.count + 1⟩

/-! ## Specification -/

/-- The parameters of a camera model, in the order of the file: the number of those in front of the focal lengths, and what
holds for them. -/
def ValidIntrinsics (model : String) (v : List Num) : Prop :=
  ∃ (front : List Num) (fu fv pu pv : ℚ), v = front ++ [.flt fu, .flt fv, .flt pu, .flt pv] ∧
    0 ≤ fu ∧ 0 ≤ fv ∧ 0 ≤ pu ∧ 0 ≤ pv ∧
    ((model = "pinhole" ∧ front = []) ∨
     (model = "omni" ∧ ∃ xi, front = [xi] ∧ 0 ≤ xi.val) ∨
     (model = "ds" ∧ ∃ xi alpha, front = [xi, alpha] ∧ 0 ≤ alpha.val ∧ alpha.val < 1) ∨
     (model = "eucm" ∧ ∃ alpha beta, front = [alpha, beta] ∧ 0 ≤ alpha.val ∧ alpha.val < 1 ∧ 0 ≤ beta.val))

end Kalibr.App.Config
