import Verif.Common
import Verif.Camera.Projection
import Verif.Expr.Model

/-! Model for C106: cameras with their design variables, and the reprojection error terms.

`aslam_cv/aslam_cv_error_terms/include/aslam_cv_error_terms/implementation/{ReprojectionError,SimpleReprojectionError}.hpp`,
`aslam_cv/aslam_cv_backend/include/aslam_cv_backend/implementation/CameraDesignVariable.hpp` and the parts of
`aslam_cv/aslam_cameras` they call.  `impl/` stands for
`aslam_cv/aslam_cameras/include/aslam_cameras/cameras/implementation/`. -/

namespace Kalibr.Reproj

open Kalibr.Camera

/-- A distortion class: the distortion for a parameter vector, and which parameter vectors `update` accepts. -/
structure Family (n : ℕ) where
  make : (Fin n → ℝ) → Distortion n
  valid : (Fin n → ℝ) → Prop

/-- `NoDistortion`. -/
noncomputable def Family.none : Family 0 := ⟨fun _ => noDistortion, fun _ => True⟩

/-- `RadialTangentialDistortion`. -/
noncomputable def Family.radtan : Family 4 := ⟨Camera.radtan, fun _ => True⟩

/-- `EquidistantDistortion`. -/
noncomputable def Family.equidistant : Family 4 := ⟨Camera.equidistant, fun _ => True⟩

/-- `FovDistortion` with `areParametersValid` (include/aslam_cameras/cameras/FovDistortion.hpp:123-125, 147-148). -/
noncomputable def Family.fov : Family 1 :=
  ⟨fun k => Camera.fov (k 0), fun k => |k 0| < 1 / 10 ^ 16 ∨ (1 / 2 ≤ k 0 ∧ k 0 ≤ 3 / 2)⟩

/-- A camera: the members of its projection other than the distortion, and the parameters of its distortion.  The
shutter is not used by the functions here. -/
structure Cam (P : Type) (n : ℕ) where
  proj : P
  k : Fin n → ℝ

/-- `update` of a distortion: src/RadialTangentialDistortion.cpp:38-43, src/EquidistantDistortion.cpp:35-40,
src/FovDistortion.cpp:24-27, src/NoDistortion.cpp:14-16.  The parameters are assigned before the check. -/
noncomputable def Family.update {P : Type} {n : ℕ} (F : Family n) (c : Cam P n) (w : Fin n → ℝ) : Out (Cam P n) :=
  open Classical in if F.valid (c.k + w) then .ok { c with k := c.k + w } else .raise

/-- What an error term uses of a camera class. -/
structure CamClass (C : Type) (ni nd : ℕ) where
  /-- `homogeneousToKeypoint(p, k)` (impl/CameraGeometry.hpp:232-238): `none` if the keypoint was not written. -/
  projectH : C → V4 → Option V2
  /-- `homogeneousToKeypoint(p, k, J)` (impl/CameraGeometry.hpp:241-248): the Jacobian. -/
  projectHJac : C → V4 → Option (Matrix (Fin 2) (Fin 4) ℝ)
  /-- `homogeneousToKeypointIntrinsicsJacobian` (impl/CameraGeometry.hpp:352-356). -/
  intrinsicsHJ : C → V4 → Option (Matrix (Fin 2) (Fin ni) ℝ)
  /-- `homogeneousToKeypointDistortionJacobian` (impl/CameraGeometry.hpp:360-364). -/
  distortionHJ : C → V4 → Option (Matrix (Fin 2) (Fin nd) ℝ)
  /-- `update` of the projection, by its design variable. -/
  updateI : C → (Fin ni → ℝ) → C
  /-- `update` of the distortion, by its design variable. -/
  updateD : C → (Fin nd → ℝ) → Out C

/-- The Euclidean point the Jacobians with respect to the parameters are taken at: impl/PinholeProjection.hpp:387-393
and 406-412, impl/OmniProjection.hpp:445-479, impl/ExtendedUnifiedProjection.hpp:471-505,
impl/DoubleSphereProjection.hpp:519-553. -/
noncomputable def front (ph : V4) : V3 := if ph 3 < 0 then -head3 ph else head3 ph

/-- The frame of a pinhole camera. -/
def Cam.frame {n : ℕ} (F : Family n) (c : Cam (Frame n) n) : Frame n := { c.proj with D := F.make c.k }

/-- `CameraGeometry<PinholeProjection<D>, …>`. -/
noncomputable def pinhole {n : ℕ} (F : Family n) : CamClass (Cam (Frame n) n) 4 n where
  projectH c ph := (Pinhole.projectH (c.frame F) ph).1
  projectHJac c ph := Pinhole.projectHJac (c.frame F) ph
  intrinsicsHJ c ph := some (Pinhole.intrinsicsJ (c.frame F) (front ph))
  distortionHJ c ph := Pinhole.distortionJ (c.frame F) (front ph)
  updateI c v := { c with proj := Pinhole.update c.proj v }
  updateD := F.update

/-- The members of an omnidirectional camera. -/
def Cam.omni {n : ℕ} (F : Family n) (c : Cam (Omni n) n) : Omni n := { c.proj with D := F.make c.k }

/-- `CameraGeometry<OmniProjection<D>, …>`. -/
noncomputable def omni {n : ℕ} (F : Family n) : CamClass (Cam (Omni n) n) 5 n where
  projectH c ph := ((c.omni F).projectH ph).1
  projectHJac c ph := (c.omni F).projectHJac ph
  intrinsicsHJ c ph := (c.omni F).intrinsicsJ (front ph)
  distortionHJ c ph := (c.omni F).distortionJ (front ph)
  updateI c v := { c with proj := c.proj.update v }
  updateD := F.update

/-- impl/ExtendedUnifiedProjection.hpp:217-244, homogeneousToKeypoint(ph, k, J): the Jacobian. -/
noncomputable def eucmHJac {n : ℕ} (c : EUCM n) (ph : V4) : Matrix (Fin 2) (Fin 4) ℝ :=
  if ph 3 < 0 then -widen (c.projectJ (-head3 ph)) else widen (c.projectJ (head3 ph))

/-- `CameraGeometry<ExtendedUnifiedProjection<NoDistortion>, …>`; the distortion Jacobian has no columns
(impl/ExtendedUnifiedProjection.hpp:453-468). -/
noncomputable def eucm : CamClass (EUCM 0) 6 0 where
  projectH c ph := (c.projectH ph).1
  projectHJac c ph := some (eucmHJac c ph)
  intrinsicsHJ c ph := some (c.intrinsicsJ (front ph))
  distortionHJ _ _ := some (Matrix.of fun _ j => j.elim0)
  updateI c v := c.update v
  updateD c _ := .ok c

/-- impl/DoubleSphereProjection.hpp:240-267, homogeneousToKeypoint(ph, k, J): the Jacobian. -/
noncomputable def dsHJac {n : ℕ} (c : DS n) (ph : V4) : Matrix (Fin 2) (Fin 4) ℝ :=
  if ph 3 < 0 then -widen (c.projectJ (-head3 ph)) else widen (c.projectJ (head3 ph))

/-- `CameraGeometry<DoubleSphereProjection<NoDistortion>, …>`; the distortion Jacobian has no columns
(impl/DoubleSphereProjection.hpp:501-515). -/
noncomputable def ds : CamClass (DS 0) 6 0 where
  projectH c ph := (c.projectH ph).1
  projectHJac c ph := some (dsHJac c ph)
  intrinsicsHJ c ph := some (c.intrinsicsJ (front ph))
  distortionHJ _ _ := some (Matrix.of fun _ j => j.elim0)
  updateI c v := c.update v
  updateD c _ := .ok c

/-! ## Error terms -/

/-- The members of a `ReprojectionError` or `SimpleReprojectionError`.  The camera is held by pointer: it is an
argument of the functions below. -/
structure Term where
  y : V2
  invR : M2
  point : Exp.Expr .hom

/-- Which design variables of the camera are active (`CameraDesignVariable::setActive`,
CameraDesignVariable.hpp:17-22). -/
structure Active where
  projection : Bool
  distortion : Bool
  shutter : Bool

/-- The design variables of an error term: those of the point, and the three of the camera. -/
inductive CamDV
  | point (d : Exp.DV)
  | projection
  | distortion
  | shutter
  deriving DecidableEq

variable {C : Type} {ni nd : ℕ}

/-- ReprojectionError.hpp:49-60 and SimpleReprojectionError.hpp:42-52, evaluateErrorImplementation: the error vector and
the value returned.  Whether the projection succeeded is not looked at: if it did not write the keypoint, an
uninitialised vector is used. -/
noncomputable def Term.evaluateError (K : CamClass C ni nd) (cam : C) (x : Exp.State) (t : Term) (m : Exp.Cache) :
    Out (V2 × ℝ) × Exp.Cache :=
  let r := Exp.eval x t.point m
  (match K.projectH cam r.1 with
    | none => .ub
    | some hat_y =>
      let e := t.y - hat_y
      .ok (e, e ⬝ᵥ t.invR.mulVec e), r.2)

/-- ReprojectionError.hpp:97-106, getPredictedMeasurement. -/
noncomputable def Term.predicted (K : CamClass C ni nd) (cam : C) (x : Exp.State) (t : Term) (m : Exp.Cache) :
    Out V2 × Exp.Cache :=
  let r := Exp.eval x t.point m
  (match K.projectH cam r.1 with
    | none => .ub
    | some hat_y => .ok hat_y, r.2)

/-- A block for a design variable of the camera: computed and added if the variable is active. -/
def block {n : ℕ} (active : Bool) (J : Option (Matrix (Fin 2) (Fin n) ℝ)) : Out (Option (Matrix (Fin 2) (Fin n) ℝ)) :=
  if active then
    match J with
    | none => .ub
    | some J => .ok (some (-J))
  else .ok none

/-- CameraDesignVariable.hpp:38-54, evaluateJacobians: the blocks for the projection and the distortion. -/
def cameraBlocks (K : CamClass C ni nd) (cam : C) (a : Active) (ph : V4) :
    Out (Option (Matrix (Fin 2) (Fin ni) ℝ) × Option (Matrix (Fin 2) (Fin nd) ℝ)) := do
  let jp ← block a.projection (K.intrinsicsHJ cam ph)
  let jd ← block a.distortion (K.distortionHJ cam ph)
  pure (jp, jd)

/-- The blocks an error term adds: for the variables of the point, for the projection and for the distortion. -/
structure Blocks (ni nd : ℕ) where
  point : List (Exp.Block 2)
  projection : Option (Matrix (Fin 2) (Fin ni) ℝ)
  distortion : Option (Matrix (Fin 2) (Fin nd) ℝ)

/-- The Jacobian part both classes have: ReprojectionError.hpp:68-73, SimpleReprojectionError.hpp:58-62. -/
noncomputable def Term.pointBlocks (K : CamClass C ni nd) (cam : C) (x : Exp.State) (t : Term) (m : Exp.Cache) :
    Out (V4 × List (Exp.Block 2)) × Exp.Cache :=
  let r := Exp.eval x t.point m
  match K.projectHJac cam r.1 with
  | none => (.ub, r.2)
  | some J =>
    let b := Exp.jac x t.point (k := .hom) (-J) r.2
    (.ok (r.1, b.1), b.2)

/-- ReprojectionError.hpp:62-77, evaluateJacobiansImplementation. -/
noncomputable def Term.evaluateJacobians (K : CamClass C ni nd) (cam : C) (a : Active) (x : Exp.State) (t : Term)
    (m : Exp.Cache) : Out (Blocks ni nd) × Exp.Cache :=
  let r := t.pointBlocks K cam x m
  (do let (p, b) ← r.1
      let (jp, jd) ← cameraBlocks K cam a p
      pure ⟨b, jp, jd⟩, r.2)

/-- SimpleReprojectionError.hpp:54-64, evaluateJacobiansImplementation. -/
noncomputable def Term.evaluateJacobiansSimple (K : CamClass C ni nd) (cam : C) (x : Exp.State) (t : Term)
    (m : Exp.Cache) : Out (Blocks ni nd) × Exp.Cache :=
  let r := t.pointBlocks K cam x m
  (do let (_, b) ← r.1
      pure ⟨b, none, none⟩, r.2)

/-- The design variables registered by the constructors of `ReprojectionError` (ReprojectionError.hpp:18-22 and 36-40,
CameraDesignVariable.hpp:73-81). -/
def Term.dvs (t : Term) : List CamDV :=
  (Exp.dvs t.point).map .point ++ [.projection, .distortion, .shutter]

/-- ReprojectionError.hpp:79-90, updateMeasurement and updateMeasurementAndCovariance. -/
def Term.updateMeasurement (t : Term) (y : V2) : Term := { t with y := y }

/-- ReprojectionError.hpp:85-90. -/
def Term.updateMeasurementAndCovariance (t : Term) (y : V2) (invR : M2) : Term := { t with y := y, invR := invR }

end Kalibr.Reproj
