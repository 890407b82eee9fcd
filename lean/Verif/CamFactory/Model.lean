import Verif.Common

/-!
# Creating a camera from its type

Models `CameraGeometryBase::create` of `/repo/aslam_cv/aslam_cameras/src/CameraGeometryBase.cpp`: which kind of camera the
type in the configuration stands for.  The rest of the configuration is read by the projection, shutter and mask.
-/

namespace Kalibr.CamFactory

/-- The projections (cameras.hpp). -/
inductive Projection
  | pinhole | omni | extendedUnified | doubleSphere
  deriving DecidableEq

/-- The distortions (cameras.hpp). -/
inductive Distortion
  | none | radtan | equidistant | fov
  deriving DecidableEq

/-- The instance of the template `CameraGeometry` (cameras.hpp). -/
structure Camera where
  projection : Projection
  distortion : Distortion
  rolling : Bool
  masked : Bool
  deriving DecidableEq

/-- `CameraGeometryBase::create` (CameraGeometryBase.cpp:13-136). -/
def create (type : String) : Out Camera :=
  if type = "Pinhole" then .ok ⟨.pinhole, .none, false, false⟩
  else if type = "DistortedPinhole" then .ok ⟨.pinhole, .radtan, false, false⟩
  else if type = "EquidistantDistortedPinhole" then .ok ⟨.pinhole, .equidistant, false, false⟩
  else if type = "FovDistortedPinhole" then .ok ⟨.pinhole, .fov, false, false⟩
  else if type = "Omni" then .ok ⟨.omni, .none, false, false⟩
  else if type = "DistortedOmni" then .ok ⟨.omni, .radtan, false, false⟩
  else if type = "EquidistantDistortedOmni" then .ok ⟨.omni, .equidistant, false, false⟩
  else if type = "ExtendedUnified" then .ok ⟨.extendedUnified, .none, false, false⟩
  else if type = "DoubleSphere" then .ok ⟨.doubleSphere, .none, false, false⟩
  else if type = "PinholeRs" then .ok ⟨.pinhole, .none, true, false⟩
  else if type = "DistortedPinholeRs" then .ok ⟨.pinhole, .radtan, true, false⟩
  else if type = "EquidistantDistortedPinholeRs" then .ok ⟨.pinhole, .equidistant, true, false⟩
  else if type = "OmniRs" then .ok ⟨.omni, .none, true, false⟩
  else if type = "DistortedOmniRs" then .ok ⟨.omni, .radtan, true, false⟩
  else if type = "EquidistantDistortedOmniRs" then .ok ⟨.omni, .equidistant, true, false⟩
  else if type = "MaskedPinhole" then .ok ⟨.pinhole, .none, false, true⟩
  else if type = "MaskedDistortedPinhole" then .ok ⟨.pinhole, .radtan, false, true⟩
  else if type = "MaskedEquidistantDistortedPinhole" then .ok ⟨.pinhole, .equidistant, false, true⟩
  else if type = "MaskedOmni" then .ok ⟨.omni, .none, false, true⟩
  else if type = "MaskedDistortedOmni" then .ok ⟨.omni, .radtan, false, true⟩
  else if type = "MaskedEquidistantDistortedOmni" then .ok ⟨.omni, .equidistant, false, true⟩
  else if type = "MaskedPinholeRs" then .ok ⟨.pinhole, .none, true, true⟩
  else if type = "MaskedDistortedPinholeRs" then .ok ⟨.pinhole, .radtan, true, true⟩
  else if type = "MaskedEquidistantDistortedPinholeRs" then .ok ⟨.pinhole, .equidistant, true, true⟩
  else if type = "MaskedOmniRs" then .ok ⟨.omni, .none, true, true⟩
  else if type = "MaskedDistortedOmniRs" then .ok ⟨.omni, .radtan, true, true⟩
  else if type = "MaskedEquidistantDistortedOmniRs" then .ok ⟨.omni, .equidistant, true, true⟩
  else .raise

end Kalibr.CamFactory
