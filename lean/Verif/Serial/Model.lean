import Verif.Common
import Verif.Tactics
import Mathlib.Data.Matrix.Basic
import Mathlib.Analysis.SpecialFunctions.Sqrt

/-!
# Model of saving and loading with Boost serialization

Sources: `Schweizer-Messer/sm_eigen/include/sm_eigen/serialization.hpp` (cited as `Eigen`), `Schweizer-Messer/sm_opencv/include/sm_opencv/serialization.hpp`
(cited as `OpenCV`), and the members `save` and `load` of classes, cited by the name of the header: in `aslam_cv/aslam_cameras/include/aslam_cameras/cameras/` the
projections, distortions, shutters, masks, `CameraGeometry.hpp`, the targets, `GridDetector.hpp` and `GridCalibrationTargetObservation.hpp`; in
`aslam_cv/aslam_cameras/include/aslam_cameras/` `Keypoint.hpp`, `KeypointIdentifier.hpp` and `Landmark.hpp`; in
`aslam_cv/aslam_cameras_april/include/aslam_cameras_april/` `GridCalibrationTargetAprilgrid.hpp`; in
`Schweizer-Messer/sm_kinematics/include/sm_kinematics/` transformations, points and vectors; `aslam_cv/aslam_time/include/aslam_time/Time.hpp`.

Simplifications: an archive is a list of what was written to it, in order; numbers are read back as they were written.  A pointer is written as
the class of what it points to and the object itself; that two pointers to one object are one object again is not modelled.  The versions of classes are
modelled where loading depends on them.
-/

namespace Kalibr.Serial

/-- The kinds of archives of Boost. -/
inductive Kind
  | text
  | binary
  | xml
  deriving DecidableEq

/-- What is written to an archive.  Only XML archives have tags. -/
inductive Tok
  | real (x : ℝ)
  | int (n : ℤ)
  | nat (n : ℕ)
  | bool (b : Bool)
  | byte (b : ℕ)
  | blob (l : List ℕ)
  | cls (c : Option ℕ)
  | tag
  | endTag

/-- Reading from an archive: the value and what is left, or an `archive_exception`. -/
def Rd (α : Type) : Type := List Tok → Out (α × List Tok)

instance : Monad Rd where
  pure a := fun s => .ok (a, s)
  bind m f := fun s => (m s).bind fun p => f p.1 p.2

/-- An assertion of the code that fails. -/
def fail {α : Type} : Rd α := fun _ => .raise

def rdReal : Rd ℝ
  | .real x :: s => .ok (x, s)
  | _ => .raise
def rdInt : Rd ℤ
  | .int x :: s => .ok (x, s)
  | _ => .raise
def rdNat : Rd ℕ
  | .nat x :: s => .ok (x, s)
  | _ => .raise
def rdBool : Rd Bool
  | .bool x :: s => .ok (x, s)
  | _ => .raise
def rdByte : Rd ℕ
  | .byte x :: s => .ok (x, s)
  | _ => .raise
def rdCls : Rd (Option ℕ)
  | .cls x :: s => .ok (x, s)
  | _ => .raise
def rdTag : Rd Unit
  | .tag :: s => .ok ((), s)
  | _ => .raise
def rdEndTag : Rd Unit
  | .endTag :: s => .ok ((), s)
  | _ => .raise

/-- A fixed number of things, one after the other. -/
def rdMany {α : Type} (r : Rd α) : ℕ → Rd (List α)
  | 0 => pure []
  | n + 1 => do
    let a ← r
    let l ← rdMany r n
    return a :: l

/-- Saving an object, and loading into an object that exists. -/
structure Codec (α : Type) where
  save : α → List Tok
  load : α → Rd α

/-- `make_binary_object`: binary archives have the bytes themselves, the others text in base 64. -/
def saveBlob (k : Kind) (l : List ℕ) : List Tok := if k = .binary then l.map .byte else [.blob l]

/-- `n` bytes of text in base 64: what is left over is skipped. -/
def rdBlob (n : ℕ) : Rd (List ℕ)
  | .blob l :: s => if n ≤ l.length then .ok (l.take n, s) else .raise
  | _ => .raise

/-- Loading `n` bytes. -/
def loadBlob (k : Kind) (n : ℕ) : Rd (List ℕ) := if k = .binary then rdMany rdByte n else rdBlob n

/-- `make_nvp("data", ...)`: an element of an XML archive. -/
def saveData (k : Kind) (l : List Tok) : List Tok := if k = .xml then .tag :: (l ++ [.endTag]) else l

def loadData {α : Type} (k : Kind) (r : Rd α) : Rd α :=
  if k = .xml then do
    rdTag
    let a ← r
    rdEndTag
    return a
  else r

/-! ## Matrices of Eigen -/

/-- A matrix: its sizes and its elements in the order of storage. -/
structure Mat where
  rows : ℕ
  cols : ℕ
  data : List ℝ

/-- The sizes of a type of matrices, nothing for `Eigen::Dynamic`. -/
structure MatType where
  A : Option ℕ
  B : Option ℕ

/-- The matrix is one of the type. -/
structure Mat.Of (m : Mat) (t : MatType) : Prop where
  rows : ∀ a, t.A = some a → m.rows = a
  cols : ∀ b, t.B = some b → m.cols = b
  data : m.data.length = m.rows * m.cols

/-- `save`, Eigen 40-56. -/
def saveMat (k : Kind) (m : Mat) : List Tok :=
  [.nat m.rows, .nat m.cols] ++ if m.rows > 0 ∧ m.cols > 0 then saveData k (m.data.map .real) else []

/-- The elements, Eigen 82-85, 112-115 and 167-170: `if(rows > 0 && cols > 0)`. -/
def loadElements (k : Kind) (rows cols : ℕ) : Rd (List ℝ) :=
  if rows > 0 ∧ cols > 0 then loadData k (rdMany rdReal (rows * cols)) else pure []

/-- The four functions `load`, Eigen 71-86 (fixed size), 101-116 (dynamic rows), 131-145 (dynamic columns) and 158-171 (both dynamic).
The one for dynamic columns does not look whether there are elements. -/
def loadMat (k : Kind) (t : MatType) : Rd Mat := do
  let rows ← rdNat
  let cols ← rdNat
  match t.A, t.B with
  | some a, some b =>
    if rows ≠ a then fail else if cols ≠ b then fail else do
      let data ← loadElements k rows cols
      return ⟨a, b, data⟩
  | none, some b =>
    if cols ≠ b then fail else do
      let data ← loadElements k rows cols
      return ⟨rows, b, data⟩
  | some a, none =>
    if rows ≠ a then fail else do
      let data ← loadData k (rdMany rdReal (a * cols))
      return ⟨a, cols, data⟩
  | none, none => do
      let data ← loadElements k rows cols
      return ⟨rows, cols, data⟩

/-- A column of fixed size as a matrix. -/
def saveVec {n : ℕ} (k : Kind) (v : Fin n → ℝ) : List Tok := saveMat k ⟨n, 1, List.ofFn v⟩

def loadVec (n : ℕ) (k : Kind) : Rd (Fin n → ℝ) := do
  let m ← loadMat k ⟨some n, some 1⟩
  return fun i => m.data.getD i 0

/-- A matrix of fixed size, stored by columns. -/
def saveFix {r c : ℕ} (k : Kind) (M : Matrix (Fin r) (Fin c) ℝ) : List Tok :=
  saveMat k ⟨r, c, List.ofFn fun n : Fin (c * r) => M n.modNat n.divNat⟩

def loadFix (r c : ℕ) (k : Kind) : Rd (Matrix (Fin r) (Fin c) ℝ) := do
  let m ← loadMat k ⟨some r, some c⟩
  return fun i j => m.data.getD (i + r * j) 0

/-! ## Images of OpenCV -/

/-- `cv::Mat`: `data` is the memory from the first element to the end of what was allocated, `step` the distance of rows in bytes. -/
structure CvMat where
  rows : ℕ
  cols : ℕ
  type : ℕ
  step : ℕ
  data : List ℕ

/-- The bytes of an element, `CV_ELEM_SIZE(type)`: the three low bits are the depth, the others the number of channels minus one. -/
def elemSize (type : ℕ) : ℕ := (type / 8 + 1) * ([1, 1, 2, 2, 4, 4, 8, 2].getD (type % 8) 1)

/-- The bytes of the rows. -/
def CvMat.content (m : CvMat) : List (List ℕ) :=
  (List.range m.rows).map fun r => (m.data.drop (r * m.step)).take (m.cols * elemSize m.type)

/-- The memory holds all rows, and rows do not overlap. -/
structure CvMat.Valid (m : CvMat) : Prop where
  step : m.cols * elemSize m.type ≤ m.step
  data : ∀ r < m.rows, r * m.step + m.cols * elemSize m.type ≤ m.data.length

/-- `isContinuous`: OpenCV sets the flag for matrices of one row too. -/
def CvMat.isContinuous (m : CvMat) : Bool := decide (m.rows ≤ 1 ∨ m.step = m.cols * elemSize m.type)

/-- `clone`, and `create` followed by filling: rows without gaps. -/
def CvMat.clone (m : CvMat) : CvMat := ⟨m.rows, m.cols, m.type, m.cols * elemSize m.type, m.content.flatten⟩

/-- `save`, OpenCV 110-126: `step * rows` bytes are read from the memory. -/
def saveCv (k : Kind) (m : CvMat) : Out (List Tok) :=
  let m' := if m.isContinuous then m else m.clone
  if m'.data.length < m'.step * m'.rows then .ub
  else .ok ([.int m'.rows, .int m'.cols, .int m'.type] ++ saveBlob k (m'.data.take (m'.step * m'.rows)))

/-- `load`, OpenCV 128-137. -/
def loadCv (k : Kind) : Rd CvMat := do
  let rows ← rdInt
  let cols ← rdInt
  let type ← rdInt
  let step := cols.toNat * elemSize type.toNat
  let data ← loadBlob k (step * rows.toNat)
  return ⟨rows.toNat, cols.toNat, type.toNat, step, data⟩

/-! ## Distortions -/

structure RadTan where
  k1 : ℝ
  k2 : ℝ
  p1 : ℝ
  p2 : ℝ

/-- `implementation/RadialTangentialDistortion.hpp` 185-204. -/
def radtan : Codec RadTan where
  save d := [.real d.k1, .real d.k2, .real d.p1, .real d.p2]
  load _ := do
    let k1 ← rdReal
    let k2 ← rdReal
    let p1 ← rdReal
    let p2 ← rdReal
    return ⟨k1, k2, p1, p2⟩

structure Equidistant where
  k1 : ℝ
  k2 : ℝ
  k3 : ℝ
  k4 : ℝ

/-- `implementation/EquidistantDistortion.hpp` 298-316. -/
def equidistant : Codec Equidistant where
  save d := [.real d.k1, .real d.k2, .real d.k3, .real d.k4]
  load _ := do
    let k1 ← rdReal
    let k2 ← rdReal
    let k3 ← rdReal
    let k4 ← rdReal
    return ⟨k1, k2, k3, k4⟩

/-- `implementation/FovDistortion.hpp` 173-185. -/
def fov : Codec ℝ where
  save w := [.real w]
  load _ := rdReal

/-- `NoDistortion.hpp` 56-57, `NoMask.hpp` 35-36 and `GlobalShutter.hpp` 57-61. -/
def nothing : Codec Unit where
  save _ := []
  load _ := pure ()

/-! ## Projections -/

structure Pinhole (D : Type) where
  fu : ℝ
  fv : ℝ
  cu : ℝ
  cv : ℝ
  ru : ℤ
  rv : ℤ
  distortion : D
  recip_fu : ℝ
  recip_fv : ℝ
  fu_over_fv : ℝ

/-- `updateTemporaries`, `implementation/PinholeProjection.hpp` 545-550. -/
noncomputable def Pinhole.updateTemporaries {D : Type} (p : Pinhole D) : Pinhole D :=
  { p with recip_fu := 1 / p.fu, recip_fv := 1 / p.fv, fu_over_fv := p.fu / p.fv }

/-- `implementation/PinholeProjection.hpp` 418-447. -/
noncomputable def pinhole {D : Type} (d : Codec D) : Codec (Pinhole D) where
  save p := [.real p.fu, .real p.fv, .real p.cu, .real p.cv, .int p.ru, .int p.rv] ++ d.save p.distortion
  load old := do
    let fu ← rdReal
    let fv ← rdReal
    let cu ← rdReal
    let cv ← rdReal
    let ru ← rdInt
    let rv ← rdInt
    let distortion ← d.load old.distortion
    return ({ old with fu := fu, fv := fv, cu := cu, cv := cv, ru := ru, rv := rv, distortion := distortion } : Pinhole D).updateTemporaries

structure Omni (D : Type) where
  xi : ℝ
  fu : ℝ
  fv : ℝ
  cu : ℝ
  cv : ℝ
  ru : ℤ
  rv : ℤ
  distortion : D
  recip_fu : ℝ
  recip_fv : ℝ
  fu_over_fv : ℝ
  one_over_xixi_m_1 : ℝ
  fov_parameter : ℝ

/-- `updateTemporaries`, `implementation/OmniProjection.hpp` 623-629. -/
noncomputable def Omni.updateTemporaries {D : Type} (p : Omni D) : Omni D :=
  { p with recip_fu := 1 / p.fu, recip_fv := 1 / p.fv, fu_over_fv := p.fu / p.fv, one_over_xixi_m_1 := 1 / (p.xi * p.xi - 1),
           fov_parameter := if p.xi ≤ 1 then p.xi else 1 / p.xi }

/-- `implementation/OmniProjection.hpp` 483-513. -/
noncomputable def omni {D : Type} (d : Codec D) : Codec (Omni D) where
  save p := [.real p.xi, .real p.fu, .real p.fv, .real p.cu, .real p.cv, .int p.ru, .int p.rv] ++ d.save p.distortion
  load old := do
    let xi ← rdReal
    let fu ← rdReal
    let fv ← rdReal
    let cu ← rdReal
    let cv ← rdReal
    let ru ← rdInt
    let rv ← rdInt
    let distortion ← d.load old.distortion
    return ({ old with xi := xi, fu := fu, fv := fv, cu := cu, cv := cv, ru := ru, rv := rv, distortion := distortion } : Omni D).updateTemporaries

structure Eucm (D : Type) where
  alpha : ℝ
  beta : ℝ
  fu : ℝ
  fv : ℝ
  cu : ℝ
  cv : ℝ
  ru : ℤ
  rv : ℤ
  distortion : D
  recip_fu : ℝ
  recip_fv : ℝ
  fu_over_fv : ℝ
  one_over_beta_2alpha_m_1 : ℝ
  fov_parameter : ℝ

/-- `updateTemporaries`, `implementation/ExtendedUnifiedProjection.hpp` 647-653. -/
noncomputable def Eucm.updateTemporaries {D : Type} (p : Eucm D) : Eucm D :=
  { p with recip_fu := 1 / p.fu, recip_fv := 1 / p.fv, fu_over_fv := p.fu / p.fv,
           one_over_beta_2alpha_m_1 := 1 / (p.beta * (2 * p.alpha - 1)),
           fov_parameter := if p.alpha ≤ 0.5 then p.alpha / (1 - p.alpha) else (1 - p.alpha) / p.alpha }

/-- `implementation/ExtendedUnifiedProjection.hpp` 509-541. -/
noncomputable def eucm {D : Type} (d : Codec D) : Codec (Eucm D) where
  save p := [.real p.alpha, .real p.beta, .real p.fu, .real p.fv, .real p.cu, .real p.cv, .int p.ru, .int p.rv] ++ d.save p.distortion
  load old := do
    let alpha ← rdReal
    let beta ← rdReal
    let fu ← rdReal
    let fv ← rdReal
    let cu ← rdReal
    let cv ← rdReal
    let ru ← rdInt
    let rv ← rdInt
    let distortion ← d.load old.distortion
    return ({ old with alpha := alpha, beta := beta, fu := fu, fv := fv, cu := cu, cv := cv, ru := ru, rv := rv, distortion := distortion } :
      Eucm D).updateTemporaries

structure Ds (D : Type) where
  xi : ℝ
  alpha : ℝ
  fu : ℝ
  fv : ℝ
  cu : ℝ
  cv : ℝ
  ru : ℤ
  rv : ℤ
  distortion : D
  recip_fu : ℝ
  recip_fv : ℝ
  fu_over_fv : ℝ
  one_over_2alpha_m_1 : ℝ
  fov_parameter : ℝ

/-- The auxiliary number `temp`, `implementation/DoubleSphereProjection.hpp` 700. -/
noncomputable def dsTemp (alpha : ℝ) : ℝ := if alpha ≤ 0.5 then alpha / (1 - alpha) else (1 - alpha) / alpha

/-- `updateTemporaries`, `implementation/DoubleSphereProjection.hpp` 695-702; `big` is the largest `double`. -/
noncomputable def Ds.updateTemporaries {D : Type} (big : ℝ) (p : Ds D) : Ds D :=
  { p with recip_fu := 1 / p.fu, recip_fv := 1 / p.fv, fu_over_fv := p.fu / p.fv,
           one_over_2alpha_m_1 := if p.alpha > 0.5 then 1 / (2 * p.alpha - 1) else big,
           fov_parameter := (dsTemp p.alpha + p.xi) / √(2 * dsTemp p.alpha * p.xi + p.xi * p.xi + 1) }

/-- `implementation/DoubleSphereProjection.hpp` 557-589. -/
noncomputable def ds {D : Type} (big : ℝ) (d : Codec D) : Codec (Ds D) where
  save p := [.real p.xi, .real p.alpha, .real p.fu, .real p.fv, .real p.cu, .real p.cv, .int p.ru, .int p.rv] ++ d.save p.distortion
  load old := do
    let xi ← rdReal
    let alpha ← rdReal
    let fu ← rdReal
    let fv ← rdReal
    let cu ← rdReal
    let cv ← rdReal
    let ru ← rdInt
    let rv ← rdInt
    let distortion ← d.load old.distortion
    return ({ old with xi := xi, alpha := alpha, fu := fu, fv := fv, cu := cu, cv := cv, ru := ru, rv := rv, distortion := distortion } :
      Ds D).updateTemporaries big

/-! ## Shutters, masks and cameras -/

/-- `RollingShutter.hpp` 48-58. -/
def rolling : Codec ℝ where
  save l := [.real l]
  load _ := rdReal

structure ImageMask where
  mask : CvMat
  scale : ℝ

/-- `ImageMask.hpp` 66-70. -/
def saveMask (k : Kind) (m : ImageMask) : Out (List Tok) := (saveCv k m.mask).bind fun s => .ok (s ++ [.real m.scale])

/-- `ImageMask.hpp` 51-64: what is compared with 1 is the version of the program, which is 1, not the one of the archive. -/
def loadMask (k : Kind) (version : ℕ) : Rd ImageMask :=
  if version > 1 then fail
  else if 1 < 1 then do
    let m ← loadCv k
    return ⟨m, 1⟩
  else do
    let m ← loadCv k
    let scale ← rdReal
    return ⟨m, scale⟩

/-- What version 0 of the program wrote: the mask without a scale. -/
def saveMask0 (k : Kind) (mask : CvMat) : Out (List Tok) := saveCv k mask

structure Camera (P S M : Type) where
  id : ℕ
  projection : P
  shutter : S
  mask : M

/-- `CameraGeometry.hpp` 387-410 for version 2 and later; `CameraGeometryBase` writes nothing (`CameraGeometryBase.hpp` 179-186). -/
def camera {P S M : Type} (p : Codec P) (s : Codec S) (m : Codec M) : Codec (Camera P S M) where
  save c := [.nat c.id] ++ p.save c.projection ++ s.save c.shutter ++ m.save c.mask
  load old := do
    let id ← rdNat
    let projection ← p.load old.projection
    let shutter ← s.load old.shutter
    let mask ← m.load old.mask
    return ⟨id, projection, shutter, mask⟩

/-! ## Transformations, points and vectors -/

structure Trafo where
  q : Fin 4 → ℝ
  t : Fin 3 → ℝ

/-- `Transformation.hpp` 150-163. -/
def trafo (k : Kind) : Codec Trafo where
  save T := saveVec k T.q ++ saveVec k T.t
  load _ := do
    let q ← loadVec 4 k
    let t ← loadVec 3 k
    return ⟨q, t⟩

structure UncertainTrafo extends Trafo where
  U : Matrix (Fin 6) (Fin 6) ℝ

/-- `UncertainTransformation.hpp` 90-107. -/
def uncertainTrafo (k : Kind) : Codec UncertainTrafo where
  save T := (trafo k).save T.toTrafo ++ saveFix k T.U
  load old := do
    let T ← (trafo k).load old.toTrafo
    let U ← loadFix 6 6 k
    return ⟨T, U⟩

/-- `HomogeneousPoint.hpp` 114-125. -/
def point (k : Kind) : Codec (Fin 4 → ℝ) where
  save p := saveVec k p
  load _ := loadVec 4 k

structure UncertainPoint where
  ph : Fin 4 → ℝ
  U : Matrix (Fin 4) (Fin 4) ℝ

/-- `UncertainHomogeneousPoint.hpp` 89-102. -/
def uncertainPoint (k : Kind) : Codec UncertainPoint where
  save p := (point k).save p.ph ++ saveFix k p.U
  load old := do
    let ph ← (point k).load old.ph
    let U ← loadFix 4 4 k
    return ⟨ph, U⟩

structure UncertainVector (n : ℕ) where
  v : Fin n → ℝ
  E : Matrix (Fin n) (Fin n) ℝ

/-- `UncertainVector.hpp` 83-97. -/
def uncertainVector (n : ℕ) (k : Kind) : Codec (UncertainVector n) where
  save p := saveVec k p.v ++ saveFix k p.E
  load _ := do
    let v ← loadVec n k
    let E ← loadFix n n k
    return ⟨v, E⟩

/-! ## Keypoints -/

/-- A pointer to one class of objects, or the null pointer; the new object is made by the default constructor. -/
def pointer {α : Type} (default : α) (c : Codec α) : Codec (Option α) where
  save
    | none => [.cls none]
    | some a => .cls (some 0) :: c.save a
  load _ := do
    match ← rdCls with
    | none => return none
    | some _ => do
      let a ← c.load default
      return some a

structure Keypoint (n : ℕ) where
  measurement : Fin n → ℝ
  inverseCovariance : Matrix (Fin n) (Fin n) ℝ
  landmarkId : ℕ
  landmark : Option UncertainPoint
  /-- The descriptor is a pointer to one of many classes. -/
  descriptor : Option (List ℕ)
  backProjection : Option (UncertainVector 3)
  octave : ℕ
  traceId : ℕ

/-- A descriptor of bytes. -/
def bytes : Codec (List ℕ) where
  save l := .nat l.length :: l.map .byte
  load _ := do
    let n ← rdNat
    rdMany rdByte n

/-- `Keypoint.hpp` 180-206; `version` is the one of the archive. -/
noncomputable def keypoint (n : ℕ) (k : Kind) (version : ℕ) : Codec (Keypoint n) where
  save p := saveVec k p.measurement ++ saveFix k p.inverseCovariance ++ [.nat p.landmarkId] ++
    (pointer ⟨0, 0⟩ (uncertainPoint k)).save p.landmark ++ (pointer [] bytes).save p.descriptor ++
    (pointer ⟨0, 0⟩ (uncertainVector 3 k)).save p.backProjection ++ [.nat p.octave]
  load old := do
    if version > 1 then fail else
    let measurement ← loadVec n k
    let inverseCovariance ← loadFix n n k
    let landmarkId ← rdNat
    let landmark ← (pointer ⟨0, 0⟩ (uncertainPoint k)).load old.landmark
    let descriptor ← (pointer [] bytes).load old.descriptor
    let backProjection ← (pointer ⟨0, 0⟩ (uncertainVector 3 k)).load old.backProjection
    let octave ← if version > 0 then rdNat else pure old.octave
    return { old with measurement := measurement, inverseCovariance := inverseCovariance, landmarkId := landmarkId, landmark := landmark,
                      descriptor := descriptor, backProjection := backProjection, octave := octave }

structure KeypointIdentifier where
  frameId : ℕ
  cameraIndex : ℕ
  keypointIndex : ℕ

/-- `KeypointIdentifier.hpp` 61-78. -/
def keypointIdentifier : Codec KeypointIdentifier where
  save p := [.nat p.frameId, .nat p.cameraIndex, .nat p.keypointIndex]
  load _ := do
    let frameId ← rdNat
    let cameraIndex ← rdNat
    let keypointIndex ← rdNat
    return ⟨frameId, cameraIndex, keypointIndex⟩

structure Landmark where
  descriptor : Option (List ℕ)
  ph : UncertainPoint
  landmarkId : ℕ
  frameId : ℕ

/-- `Landmark.hpp` 102-120. -/
def landmark (k : Kind) : Codec Landmark where
  save p := (pointer [] bytes).save p.descriptor ++ (uncertainPoint k).save p.ph ++ [.nat p.landmarkId, .nat p.frameId]
  load old := do
    let descriptor ← (pointer [] bytes).load old.descriptor
    let ph ← (uncertainPoint k).load old.ph
    let landmarkId ← rdNat
    let frameId ← rdNat
    return ⟨descriptor, ph, landmarkId, frameId⟩

/-! ## Targets -/

structure TargetBase where
  points : Mat
  rows : ℕ
  cols : ℕ

/-- `GridCalibrationTargetBase.hpp` 113-124. -/
def targetBase (k : Kind) : Codec TargetBase where
  save t := saveMat k t.points ++ [.nat t.rows, .nat t.cols]
  load _ := do
    let points ← loadMat k ⟨none, none⟩
    let rows ← rdNat
    let cols ← rdNat
    return ⟨points, rows, cols⟩

structure CheckerboardOptions where
  useAdaptiveThreshold : Bool
  normalizeImage : Bool
  performFastCheck : Bool
  filterQuads : Bool
  doSubpixelRefinement : Bool
  windowWidth : ℕ
  showExtractionVideo : Bool

/-- `GridCalibrationTargetCheckerboard.hpp` 48-69. -/
def checkerboardOptions : Codec CheckerboardOptions where
  save o := [.bool o.useAdaptiveThreshold, .bool o.normalizeImage, .bool o.performFastCheck, .bool o.filterQuads, .bool o.doSubpixelRefinement,
    .bool o.showExtractionVideo, .nat o.windowWidth]
  load _ := do
    let useAdaptiveThreshold ← rdBool
    let normalizeImage ← rdBool
    let performFastCheck ← rdBool
    let filterQuads ← rdBool
    let doSubpixelRefinement ← rdBool
    let showExtractionVideo ← rdBool
    let windowWidth ← rdNat
    return ⟨useAdaptiveThreshold, normalizeImage, performFastCheck, filterQuads, doSubpixelRefinement, windowWidth, showExtractionVideo⟩

structure Checkerboard extends TargetBase where
  rowSpacing : ℝ
  colSpacing : ℝ
  options : CheckerboardOptions

/-- `GridCalibrationTargetCheckerboard.hpp` 112-133; `initialize` opens a window, which is not modelled. -/
def checkerboard (k : Kind) : Codec Checkerboard where
  save t := (targetBase k).save t.toTargetBase ++ [.real t.rowSpacing, .real t.colSpacing] ++ checkerboardOptions.save t.options
  load old := do
    let base ← (targetBase k).load old.toTargetBase
    let rowSpacing ← rdReal
    let colSpacing ← rdReal
    let options ← checkerboardOptions.load old.options
    return ⟨base, rowSpacing, colSpacing, options⟩

structure CirclegridOptions where
  useAsymmetricCirclegrid : Bool
  showExtractionVideo : Bool

/-- `GridCalibrationTargetCirclegrid.hpp` 38-49. -/
def circlegridOptions : Codec CirclegridOptions where
  save o := [.bool o.useAsymmetricCirclegrid, .bool o.showExtractionVideo]
  load _ := do
    let useAsymmetricCirclegrid ← rdBool
    let showExtractionVideo ← rdBool
    return ⟨useAsymmetricCirclegrid, showExtractionVideo⟩

structure Circlegrid extends TargetBase where
  spacing : ℝ
  options : CirclegridOptions

/-- `GridCalibrationTargetCirclegrid.hpp` 88-106. -/
def circlegrid (k : Kind) : Codec Circlegrid where
  save t := (targetBase k).save t.toTargetBase ++ [.real t.spacing] ++ circlegridOptions.save t.options
  load old := do
    let base ← (targetBase k).load old.toTargetBase
    let spacing ← rdReal
    let options ← circlegridOptions.load old.options
    return ⟨base, spacing, options⟩

structure AprilgridOptions where
  doSubpixRefinement : Bool
  maxSubpixDisplacement2 : ℝ
  showExtractionVideo : Bool
  minTagsForValidObs : ℕ
  minBorderDistance : ℝ
  blackTagBorder : ℕ

/-- `GridCalibrationTargetAprilgrid.hpp` 62-81. -/
def aprilgridOptions : Codec AprilgridOptions where
  save o := [.bool o.doSubpixRefinement, .real o.maxSubpixDisplacement2, .bool o.showExtractionVideo, .nat o.minTagsForValidObs,
    .real o.minBorderDistance, .nat o.blackTagBorder]
  load _ := do
    let doSubpixRefinement ← rdBool
    let maxSubpixDisplacement2 ← rdReal
    let showExtractionVideo ← rdBool
    let minTagsForValidObs ← rdNat
    let minBorderDistance ← rdReal
    let blackTagBorder ← rdNat
    return ⟨doSubpixRefinement, maxSubpixDisplacement2, showExtractionVideo, minTagsForValidObs, minBorderDistance, blackTagBorder⟩

structure Aprilgrid extends TargetBase where
  tagSize : ℝ
  tagSpacing : ℝ
  options : AprilgridOptions
  /-- The detector: nothing, or one for tags with a black border of this width; the family of tags is always the same. -/
  detector : Option ℕ

/-- `initialize`, `GridCalibrationTargetAprilgrid.cpp` 56-65. -/
def Aprilgrid.initialize (t : Aprilgrid) : Aprilgrid := { t with detector := some t.options.blackTagBorder }

/-- `GridCalibrationTargetAprilgrid.hpp` 128-148. -/
def aprilgrid (k : Kind) : Codec Aprilgrid where
  save t := (targetBase k).save t.toTargetBase ++ [.real t.tagSize, .real t.tagSpacing] ++ aprilgridOptions.save t.options
  load old := do
    let base ← (targetBase k).load old.toTargetBase
    let tagSize ← rdReal
    let tagSpacing ← rdReal
    let options ← aprilgridOptions.load old.options
    return (⟨base, tagSize, tagSpacing, options, old.detector⟩ : Aprilgrid).initialize

/-- The classes a pointer to a target can point to. -/
inductive Target
  | checkerboard (t : Checkerboard)
  | circlegrid (t : Circlegrid)
  | aprilgrid (t : Aprilgrid)

/-- Objects made by the constructors for serialization; their members are not initialised. -/
noncomputable def blankBase : TargetBase := ⟨⟨0, 0, []⟩, 0, 0⟩
noncomputable def blankCheckerboard : Checkerboard := ⟨blankBase, 0, 0, true, true, true, false, true, 11, false⟩
noncomputable def blankCirclegrid : Circlegrid := ⟨blankBase, 0, false, false⟩
noncomputable def blankAprilgrid : Aprilgrid := ⟨blankBase, 0, 0, ⟨true, 1.5, false, 4, 4, 2⟩, none⟩

/-- A pointer to a target. -/
noncomputable def target (k : Kind) : Codec (Option Target) where
  save
    | none => [.cls none]
    | some (.checkerboard t) => .cls (some 0) :: (checkerboard k).save t
    | some (.circlegrid t) => .cls (some 1) :: (circlegrid k).save t
    | some (.aprilgrid t) => .cls (some 2) :: (aprilgrid k).save t
  load _ := do
    match ← rdCls with
    | none => return none
    | some 0 => do
      let t ← (checkerboard k).load blankCheckerboard
      return some (.checkerboard t)
    | some 1 => do
      let t ← (circlegrid k).load blankCirclegrid
      return some (.circlegrid t)
    | some 2 => do
      let t ← (aprilgrid k).load blankAprilgrid
      return some (.aprilgrid t)
    | some _ => fail

/-! ## Observations and detectors -/

structure Time where
  sec : ℕ
  nsec : ℕ

/-- `aslam_time/include/aslam_time/Time.hpp` 270-274. -/
def time : Codec Time where
  save t := [.nat t.sec, .nat t.nsec]
  load _ := do
    let sec ← rdNat
    let nsec ← rdNat
    return ⟨sec, nsec⟩

/-- A `std::vector<bool>`. -/
def bools : Codec (List Bool) where
  save l := .nat l.length :: l.map .bool
  load _ := do
    let n ← rdNat
    rdMany rdBool n

structure Observation where
  target : Option Target
  points : Mat
  success : List Bool
  T_t_c : Trafo
  image : CvMat
  imRows : ℕ
  imCols : ℕ
  stamp : Time
  T_t_c_isSet : Bool

/-- `save`, `GridCalibrationTargetObservation.hpp` 185-196. -/
noncomputable def saveObservation (k : Kind) (o : Observation) : Out (List Tok) :=
  (saveCv k o.image).bind fun image =>
  .ok ((target k).save o.target ++ saveMat k o.points ++ bools.save o.success ++ (trafo k).save o.T_t_c ++ image ++
    [.nat o.imRows, .nat o.imCols] ++ time.save o.stamp ++ [.bool o.T_t_c_isSet])

/-- `load`, `GridCalibrationTargetObservation.hpp` 169-183. -/
noncomputable def loadObservation (k : Kind) (old : Observation) : Rd Observation := do
  let target ← (target k).load old.target
  let points ← loadMat k ⟨none, none⟩
  let success ← bools.load old.success
  let T_t_c ← (trafo k).load old.T_t_c
  let image ← loadCv k
  let imRows ← rdNat
  let imCols ← rdNat
  let stamp ← time.load old.stamp
  let T_t_c_isSet ← rdBool
  return ⟨target, points, success, T_t_c, image, imRows, imCols, stamp, T_t_c_isSet⟩

structure DetectorOptions where
  plotCornerReprojection : Bool
  imageStepping : Bool
  filterCornerOutliers : Bool
  filterCornerSigmaThreshold : ℝ
  filterCornerMinReprojError : ℝ

/-- `GridDetector.hpp` 53-70. -/
def detectorOptions : Codec DetectorOptions where
  save o := [.bool o.plotCornerReprojection, .bool o.imageStepping, .bool o.filterCornerOutliers, .real o.filterCornerSigmaThreshold,
    .real o.filterCornerMinReprojError]
  load _ := do
    let plotCornerReprojection ← rdBool
    let imageStepping ← rdBool
    let filterCornerOutliers ← rdBool
    let filterCornerSigmaThreshold ← rdReal
    let filterCornerMinReprojError ← rdReal
    return ⟨plotCornerReprojection, imageStepping, filterCornerOutliers, filterCornerSigmaThreshold, filterCornerMinReprojError⟩

structure Detector (G : Type) where
  geometry : Option G
  target : Option Target
  options : DetectorOptions

/-- `GridDetector.hpp` 136-151, for cameras of one class; `initializeDetector` opens a window, which is not modelled. -/
noncomputable def detector {G : Type} (blank : G) (g : Codec G) (k : Kind) : Codec (Detector G) where
  save d := (pointer blank g).save d.geometry ++ (target k).save d.target ++ detectorOptions.save d.options
  load old := do
    let geometry ← (pointer blank g).load old.geometry
    let target ← (target k).load old.target
    let options ← detectorOptions.load old.options
    return ⟨geometry, target, options⟩

/-! ## Specification -/

/-- What was saved is loaded, into whatever object and whatever follows in the archive. -/
def RoundTrip {α : Type} (c : Codec α) (P : α → Prop) : Prop :=
  ∀ a, P a → ∀ (old : α) (rest : List Tok), c.load old (c.save a ++ rest) = .ok (a, rest)

end Kalibr.Serial
