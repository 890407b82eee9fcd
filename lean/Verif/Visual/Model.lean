import Verif.Common
import Verif.Tactics
import Verif.Validator.Model
import Mathlib.Analysis.SpecialFunctions.Log.Basic

/-!
# Model of the command of the calibration of cameras and inertial sensors, of the drawing of a calibration and of the measure of focus

Sources, in `/repo/aslam_offline_calibration/kalibr/python/`: `kalibr_calibrate_imu_camera` (cited as `kci`), `kalibr_visualize_calibration` (cited as
`vis`) and `kalibr_camera_focus` (cited as `focus`).

Simplifications: real numbers; what Matplotlib and OpenCV draw is not modelled.
-/

namespace Kalibr.Visual

open Kin

/-! ## The command -/

/-- How a command goes on: with a value, by `sys.exit(code)` after a message, or by an exception that nobody handles. -/
inductive Run (α : Type)
  | ok (a : α)
  | exit (code : Nat)
  | crash

/-- The classes of inertial sensors. -/
inductive ImuClass
  | calibrated
  | scaleMisalignment
  | sizeEffect
  deriving DecidableEq

/-- The name of a model on the command line, kci 149-160. -/
def imuClass (model : String) : Option ImuClass :=
  if model = "calibrated" then some .calibrated
  else if model = "scale-misalignment" then some .scaleMisalignment
  else if model = "scale-misalignment-size-effect" then some .sizeEffect
  else none

/-- An inertial sensor that was made. -/
structure Imu where
  yaml : String
  cls : ImuClass
  isReference : Bool
  deriving DecidableEq

/-- The loop over the sensors, kci 145-160: `isReferenceImu=(not imus)`. -/
def makeImus : List (String × String) → List Imu → Run (List Imu)
  | [], imus => .ok imus
  | (yaml, model) :: rest, imus =>
    match imuClass model with
    | some c => makeImus rest (imus ++ [⟨yaml, c, imus.isEmpty⟩])
    | none => .exit 2

/-- Models and configurations, kci 138-160; `models` is nothing if the option is not given.  `len(None)` is a `TypeError`. -/
def imusOf (yamls : List String) (models : Option (List String)) : Run (List Imu) :=
  match models with
  | none => if yamls.length = 1 then makeImus (yamls.zip ["calibrated"]) [] else .crash
  | some ms =>
    if yamls.length = 1 ∧ ms = [] then makeImus (yamls.zip ["calibrated"]) []
    else if yamls.length ≠ ms.length then .exit 2
    else makeImus (yamls.zip ms) []

/-- `str.maketrans('', '', "<>:/\|?*")`, kci 215. -/
def forbidden : List Char := ['<', '>', ':', '/', '\\', '|', '?', '*']

/-- `s.replace('.bag', '', 1)`, kci 215. -/
def dropBag : List Char → List Char
  | [] => []
  | c :: s => if ['.', 'b', 'a', 'g'].isPrefixOf (c :: s) then s.drop 3 else c :: dropBag s

/-- `bagtag`, kci 215. -/
def bagtag (bag : List Char) : List Char := dropBag (bag.filter fun c => !forbidden.contains c)

/-- The files that are written, kci 215-231. -/
def outputs (bag : List Char) : List (List Char) :=
  ["camchain-imucam-".toList ++ bagtag bag ++ ".yaml".toList, "imu-".toList ++ bagtag bag ++ ".yaml".toList,
   "results-imucam-".toList ++ bagtag bag ++ ".txt".toList, "report-imucam-".toList ++ bagtag bag ++ ".pdf".toList]

/-! ## Drawing a calibration -/

/-- `base_transform`, vis 158-160, as a transformation. -/
noncomputable def base : Trafo := Trafo.ofMatrix !![1, 0, 0, 0; 0, 0, 1, 0; 0, -1, 0, 0; 0, 0, 0, 1]

/-- One camera, vis 162-177: `last` is `T_c0_cnm1`; `baseline c` is `getExtrinsicsLastCamToHere(c)`. -/
noncomputable def drawCam (baseline : Nat → Trafo) (s : Trafo × List Trafo) (c : Nat) : Trafo × List Trafo :=
  let T := if c ≠ 0 then s.1.mul (baseline c).inverse else base
  (T, s.2 ++ [T])

/-- The loop over the cameras, vis 160-177: the poses at which the cameras are drawn. -/
noncomputable def drawCams (baseline : Nat → Trafo) (n : Nat) : Trafo × List Trafo := (List.range n).foldl (drawCam baseline) (Trafo.one, [])

/-- The pose at which the inertial sensor is drawn, vis 168-170. -/
noncomputable def drawImu (T_cam_imu : Trafo) : Trafo := base.mul T_cam_imu

/-- The corners of the outline of a camera before it is moved, vis 105-116; `intrinsics` are the numbers of the file. -/
noncomputable def outline (scaling : ℝ) (intrinsics : List ℝ) (resolution : ℝ × ℝ) : List V3 :=
  let f0 := intrinsics.getD 0 0
  let f1 := intrinsics.getD 1 0
  let p0 := intrinsics.getD 2 0
  let p1 := intrinsics.getD 3 0
  let ratio := f0 / f1
  let x0 := scaling * -p0
  let x1 := scaling * (resolution.1 - p0)
  let y0 := ratio * scaling * -p1
  let y1 := ratio * scaling * (resolution.2 - p1)
  let z := scaling * f0
  [![x0, y0, z], ![x1, y0, z], ![x1, y1, z], ![x0, y1, z], ![0, 0, 0]]

/-! ## The measure of focus -/

/-- `fde`, focus 31-37: the sum of `p log p` over the normalised magnitudes of the spectrum; `0 * log 0` and `0 / 0` are not numbers. -/
noncomputable def fde (magnitude : List ℝ) : Option ℝ :=
  if magnitude.sum = 0 ∨ (0 : ℝ) ∈ magnitude then none
  else some ((magnitude.map fun m => m / magnitude.sum * Real.log (m / magnitude.sum)).sum)

end Kalibr.Visual
