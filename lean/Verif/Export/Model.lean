import Verif.Common
import Verif.Tactics
import Verif.Kinematics.Transform

/-!
# Model of the tools that write a calibration for other programs

Sources: `kalibr_okvis_config`, `kalibr_rovio_config` and `kalibr_msf_config` in
`/repo/aslam_offline_calibration/kalibr/python/exporters/` (cited as `okvis`, `rovio` and `msf`), and the checks of
`kalibr_common/ConfigReader.py` 259-375 (cited as `ConfigReader`).

Simplifications: numbers are printed exactly; the fixed text around the numbers is left out, a block of text is a record of the values in
it.  Reading the YAML files is not modelled here.
-/

namespace Kalibr.Export

open Kin

inductive Projection
  | pinhole
  | omni
  | eucm
  | ds
  deriving DecidableEq

inductive Distortion
  | radtan
  | equidistant
  | fov
  | none
  deriving DecidableEq

/-- `distortionModelsAndNumParams`, ConfigReader 339-342. -/
def Distortion.size : Distortion → Nat
  | .radtan => 4
  | .equidistant => 4
  | .fov => 1
  | .none => 0

/-- The number of intrinsics, ConfigReader 268-310. -/
def Projection.size : Projection → Nat
  | .pinhole => 4
  | .omni => 5
  | .eucm => 6
  | .ds => 6

/-- One camera of the chain, as `CameraParameters` gives it out. -/
structure Camera where
  topic : List Char
  resolution : Nat × Nat
  distortion : Distortion
  coeffs : List ℝ
  projection : Projection
  intrinsics : List ℝ
  /-- `getExtrinsicsImuToCam`: takes points from the inertial sensor to the camera. -/
  T_CS : Trafo

/-- What `checkIntrinsics` and `checkDistortion` let pass. -/
structure Camera.Valid (c : Camera) : Prop where
  coeffs : c.coeffs.length = c.distortion.size
  intrinsics : c.intrinsics.length = c.projection.size
  pose : c.T_CS.Valid

/-- `topic.split("/")[-1]`, okvis 33-34. -/
def lastToken (topic : List Char) : List Char := (topic.reverse.takeWhile (· ≠ '/')).reverse

/-- `topic.split(sub)[0]` for a `sub` that is not empty: what stands before the first place where `sub` stands. -/
def before (sub : List Char) : List Char → List Char
  | [] => []
  | c :: s => if sub.isPrefixOf (c :: s) then [] else c :: before sub s

/-- The topic before the name of the image, okvis 37: `split("")` raises a `ValueError`. -/
def baseTopic (topic : List Char) : Out (List Char) :=
  if lastToken topic = [] then .raise else .ok (before (lastToken topic) topic)

/-- `s.replace("/", "", 1)`, okvis 38. -/
def dropSlash : List Char → List Char
  | [] => []
  | c :: s => if c = '/' then s else c :: dropSlash s

/-- `l[i]` of a list of numbers. -/
def item (l : List ℝ) (i : Nat) : Out ℝ :=
  match l[i]? with
  | some x => .ok x
  | none => .raise

/-- The values in a camera block for OKVIS. -/
structure OkvisBlock where
  imageBaseTopic : List Char
  imageTopic : List Char
  T_SC : M4
  imageDimension : Nat × Nat
  coeffs : List ℝ
  distortionType : String
  focal : ℝ × ℝ
  principal : ℝ × ℝ

/-- The name of the distortion, okvis 56-57. -/
def okvisDistortion : Distortion → String
  | .radtan => "radialtangential"
  | .equidistant => "equidistant"
  | .fov => "fov"
  | .none => "none"

/-- `printCameraBlock(camConfig, camchain.getExtrinsicsImuToCam(cidx).inverse().T())`, okvis 28-74 and 96-97.  The last row of the matrix is
written as `0, 0, 0, 1`; the size of the image is not put into the text of okvis 50. -/
noncomputable def okvisBlock (c : Camera) : Out (Option OkvisBlock) :=
  (baseTopic c.topic).bind fun base =>
  (item c.coeffs 0).bind fun d0 => (item c.coeffs 1).bind fun d1 => (item c.coeffs 2).bind fun d2 => (item c.coeffs 3).bind fun d3 =>
  if c.projection ≠ .pinhole then .ok none else
  (item c.intrinsics 0).bind fun fu => (item c.intrinsics 1).bind fun fv =>
  (item c.intrinsics 2).bind fun pu => (item c.intrinsics 3).bind fun pv =>
  .ok (some {
    imageBaseTopic := dropSlash base
    imageTopic := lastToken c.topic
    T_SC := Matrix.of ![c.T_CS.inverse.T 0, c.T_CS.inverse.T 1, c.T_CS.inverse.T 2, ![0, 0, 0, 1]]
    imageDimension := (752, 480)
    coeffs := [d0, d1, d2, d3]
    distortionType := okvisDistortion c.distortion
    focal := (fu, fv)
    principal := (pu, pv) })

/-- `list_fill_with`, rovio 12-17. -/
def listFillWith (l : List ℝ) (minSize : Nat) (elem : ℝ) : List ℝ :=
  if l.length ≥ minSize then l else l ++ List.replicate (minSize - l.length) elem

/-- `map_dist_model`, rovio 20-30. -/
def mapDistModel : Distortion → List ℝ → String × List ℝ
  | .radtan, p => ("plumb_bob", listFillWith p 5 0)
  | .equidistant, p => ("equidistant", listFillWith p 4 0)
  | .fov, p => ("fov", listFillWith p 1 0)
  | .none, p => ("none", p)

/-- The values in a camera block for ROVIO. -/
structure RovioBlock where
  qCM : V4
  MrMC : V3

/-- The values in a calibration file for ROVIO. -/
structure RovioFile where
  size : Nat × Nat
  matrix : List ℝ
  model : String
  coeffs : List ℝ

/-- `cidx`, rovio 43-44: the last letter of the base topic without slashes. -/
def rovioIndex (base : List Char) : List Char := (base.filter (· ≠ '/')).drop ((base.filter (· ≠ '/')).length - 1)

/-- `open(name, 'w')`: the file of that name is replaced. -/
def writeFile (files : List (List Char × RovioFile)) (name : List Char) (f : RovioFile) : List (List Char × RovioFile) :=
  files.filter (fun g => g.1 ≠ name) ++ [(name, f)]

/-- `printCameraBlock`, rovio 33-106 and 135-145: the block, and the file with its name (without `rovio_cam` and `.yaml`). -/
noncomputable def rovioBlock (c : Camera) : Out (Option (RovioBlock × List Char × RovioFile)) :=
  (baseTopic c.topic).bind fun base =>
  if c.projection ≠ .pinhole then .ok none else
  (item c.intrinsics 0).bind fun fu => (item c.intrinsics 1).bind fun fv =>
  (item c.intrinsics 2).bind fun pu => (item c.intrinsics 3).bind fun pv =>
  .ok (some (
    { qCM := c.T_CS.inverse.q, MrMC := c.T_CS.inverse.t },
    rovioIndex base,
    { size := c.resolution
      matrix := [fu, 0, pu, 0, fv, pv, 0, 0, 1]
      model := (mapDistModel c.distortion c.coeffs).1
      coeffs := (mapDistModel c.distortion c.coeffs).2 }))

/-- The loop over the cameras, rovio 131-145: the blocks and the files on the disk. -/
noncomputable def rovioExport : List Camera → List RovioBlock × List (List Char × RovioFile) →
    Out (List RovioBlock × List (List Char × RovioFile))
  | [], s => .ok s
  | c :: cs, s => (rovioBlock c).bind fun
    | none => rovioExport cs s
    | some b => rovioExport cs (s.1 ++ [b.1], writeFile s.2 b.2.1 b.2.2)

/-- The values in a configuration for MSF. -/
structure MsfConfig where
  poseDelay : ℝ
  q_ic : V4
  p_ic : V3

/-- msf 20-59: `T_SB` and `T_B` take points from the two inertial sensors to the camera. -/
noncomputable def msfConfig (T_SB T_B : Trafo) (timeshift : ℝ) : MsfConfig :=
  let T_B_SB := T_B.inverse.T * T_SB.T
  let T_SB_B := T_SB.inverse.T * T_B.T
  { poseDelay := -timeshift
    q_ic := r2quat (transform2C T_SB_B)
    p_ic := transform2rho T_B_SB }

/-! ## Specification -/

/-- The quaternion of a vector. -/
def pure3 (v : V3) : Quaternion ℝ := ⟨0, v 0, v 1, v 2⟩

/-- `q = (x, y, z, w)`, read as a quaternion of Hamilton, turns vectors as the matrix `R` does: `q v q* = R v`. -/
def Hamilton (q : V4) (R : M3) : Prop :=
  ∀ v : V3, toH q * pure3 v * star (toH q) = pure3 (R.mulVec v)

end Kalibr.Export
