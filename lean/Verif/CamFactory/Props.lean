import Verif.CamFactory.Model
import Verif.Tactics

/-!
# Creating a camera from its type: what a user relies on

C190.  The types are exactly the names composed of the parts of the supported cameras, each name creates this camera, and
every other string raises.
-/

namespace Kalibr.CamFactory

/-! ## Specification -/

/-- The name of a projection. -/
def Projection.name : Projection → String
  | .pinhole => "Pinhole"
  | .omni => "Omni"
  | .extendedUnified => "ExtendedUnified"
  | .doubleSphere => "DoubleSphere"

/-- What a distortion puts before it. -/
def Distortion.name : Distortion → String
  | .none => ""
  | .radtan => "Distorted"
  | .equidistant => "EquidistantDistorted"
  | .fov => "FovDistorted"

/-- The name of a camera. -/
def Camera.name (c : Camera) : String :=
  (if c.masked then "Masked" else "") ++ c.distortion.name ++ c.projection.name ++ (if c.rolling then "Rs" else "")

/-- The cameras that can be created: pinhole and omnidirectional ones with any shutter and mask and without the FOV
distortion, and three more without mask and rolling shutter. -/
def Camera.Supported (c : Camera) : Prop :=
  ((c.projection = .pinhole ∨ c.projection = .omni) ∧ c.distortion ≠ .fov) ∨
  (c.rolling = false ∧ c.masked = false ∧
    ((c.projection = .pinhole ∧ c.distortion = .fov) ∨
     ((c.projection = .extendedUnified ∨ c.projection = .doubleSphere) ∧ c.distortion = .none)))

/-! ## C190 -/

theorem create_name (c : Camera) (h : c.Supported) : create c.name = .ok c := by
  obtain ⟨p, d, r, m⟩ := c
  cases p <;> cases d <;> cases r <;> cases m <;>
    first
      | (exfalso; revert h; simp [Camera.Supported]; done)
      | rfl

theorem ite_ok {s t : String} {k c : Camera} {e : Out Camera} (h : (if s = t then .ok k else e) = Out.ok c) :
    (s = t ∧ k = c) ∨ e = .ok c := by
  by_cases hs : s = t
  · rw [if_pos hs] at h; exact Or.inl ⟨hs, Out.ok.inj h⟩
  · rw [if_neg hs] at h; exact Or.inr h

theorem ite_ub {s t : String} {k : Camera} {e : Out Camera} (h : (if s = t then .ok k else e) = Out.ub) : e = .ub := by
  by_cases hs : s = t
  · rw [if_pos hs] at h; cases h
  · rw [if_neg hs] at h; exact h

theorem of_create (s : String) (c : Camera) (h : create s = .ok c) : c.Supported ∧ s = c.name := by
  unfold create at h
  iterate 27
    rcases ite_ok h with ⟨e, rfl⟩ | h
    · exact ⟨by simp [Camera.Supported], e.trans rfl⟩
  cases h

theorem create_ne_ub (s : String) : create s ≠ .ub := by
  intro h
  unfold create at h
  iterate 27 replace h := ite_ub h
  cases h

/-- A string creates a camera exactly if the camera is supported and the string is its name. -/
theorem C190_create (s : String) (c : Camera) : create s = .ok c ↔ c.Supported ∧ s = c.name :=
  ⟨of_create s c, fun ⟨h, e⟩ => by rw [e]; exact create_name c h⟩

/-- Every other string raises. -/
theorem C190_unknown (s : String) : create s = .raise ↔ ∀ c : Camera, c.Supported → s ≠ c.name := by
  constructor
  · intro h c hc e
    rw [e, create_name c hc] at h
    cases h
  · intro h
    cases hs : create s with
    | ok c => exact absurd (of_create s c hs).2 (h c (of_create s c hs).1)
    | raise => rfl
    | ub => exact absurd hs (create_ne_ub s)

/-- No two supported cameras have the same name. -/
theorem C190_distinct (a b : Camera) (ha : a.Supported) (hb : b.Supported) (h : a.name = b.name) : a = b := by
  have := create_name a ha
  rw [h, create_name b hb] at this
  exact (Out.ok.inj this).symm

/-- A camera of each part, and a name that is composed the same way but not supported. -/
example : create "MaskedEquidistantDistortedOmniRs" = .ok ⟨.omni, .equidistant, true, true⟩ ∧
    create "FovDistortedPinholeRs" = .raise := ⟨rfl, rfl⟩

end Kalibr.CamFactory
