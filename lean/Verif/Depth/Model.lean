import Verif.Common
import Mathlib.Data.Real.Basic
import Mathlib.Data.Fin.VecNotation

/-!
# The depth camera

Models `aslam_cv/aslam_cameras/include/aslam_cameras/cameras/DepthProjection.hpp` and
`include/aslam_cameras/cameras/implementation/DepthProjection.hpp`: a pinhole camera whose
keypoints have the inverse depth as third coordinate.  Numbers are reals; a comparison with a
quotient by zero is only made where the code's result does not depend on it.
-/

namespace Kalibr.Depth

/-- The members (DepthProjection.hpp:217-236); the distortion as the map it applies to a
normalized image point. -/
structure Cam where
  fu : ℝ
  fv : ℝ
  cu : ℝ
  cv : ℝ
  ru : ℤ
  rv : ℤ
  recipFu : ℝ
  recipFv : ℝ
  fuOverFv : ℝ
  distort : ℝ × ℝ → ℝ × ℝ

/-- The constructor (implementation/DepthProjection.hpp:49-66). -/
noncomputable def Cam.mk' (fu fv cu cv : ℝ) (ru rv : ℤ) (distort : ℝ × ℝ → ℝ × ℝ) : Cam :=
  ⟨fu, fv, cu, cv, ru, rv, 1 / fu, 1 / fv, fu / fv, distort⟩

abbrev V3 := ℝ × ℝ × ℝ
abbrev V4 := ℝ × ℝ × ℝ × ℝ

/-- `isValid` (implementation/DepthProjection.hpp:477-485). -/
def Cam.isValid (c : Cam) (k : V3) : Prop := 0 ≤ k.1 ∧ 0 ≤ k.2.1 ∧ k.1 < c.ru ∧ k.2.1 < c.rv

/-- `euclideanToKeypoint` (implementation/DepthProjection.hpp:90-115): the keypoint and the value
returned. -/
noncomputable def Cam.project (c : Cam) (p : V3) : V3 × Prop :=
  let rz := 1 / p.2.2
  let k : V3 := (p.1 * rz, p.2.1 * rz, rz)
  let k : V3 := (c.fu * k.1 + c.cu, c.fv * k.2.1 + c.cv, k.2.2)
  (k, c.isValid k ∧ 0 < p.2.2)

/-- `Eigen::MatrixXd`. -/
structure Dyn where
  rows : ℕ
  cols : ℕ
  val : ℕ → ℕ → ℝ

/-- `operator()` of a matrix: undefined outside of it. -/
noncomputable def Dyn.at (m : Dyn) (i j : ℕ) : Out ℝ :=
  if i < m.rows ∧ j < m.cols then .ok (m.val i j) else .ub

/-- `euclideanToKeypoint` with the Jacobian (implementation/DepthProjection.hpp:117-168), from the
declaration of `Jd` on: the entries of `Jd` in the order in which they are read first, the Jacobian
by row and column, and the keypoint, which is scaled a second time at 163-164. -/
noncomputable def Cam.jacobian (c : Cam) (p : V3) (Jd : Dyn) : Out (V3 × (Fin 3 → Fin 3 → ℝ) × Prop) :=
  (Jd.at 0 0).bind fun d00 => (Jd.at 0 1).bind fun d01 => (Jd.at 1 0).bind fun d10 =>
  (Jd.at 1 1).bind fun d11 =>
    let rz := 1 / p.2.2
    let rz2 := rz * rz
    let k : V3 := (c.fu * (p.1 * rz) + c.cu, c.fv * (p.2.1 * rz) + c.cv, rz)
    let J : Fin 3 → Fin 3 → ℝ :=
      ![![c.fu * d00 * rz, c.fu * d01 * rz, -c.fu * (p.1 * d00 + p.2.1 * d01) * rz2],
        ![c.fv * d10 * rz, c.fv * d11 * rz, -c.fv * (p.1 * d10 + p.2.1 * d11) * rz2],
        ![0, 0, -rz2]]
    let k : V3 := (c.fu * k.1 + c.cu, c.fv * k.2.1 + c.cv, k.2.2)
    .ok (k, J, c.isValid k ∧ 0 < p.2.2)

/-- The same from the start: nothing is assigned to `Jd`
(implementation/DepthProjection.hpp:146-147). -/
noncomputable def Cam.projectJ (c : Cam) (p : V3) : Out (V3 × (Fin 3 → Fin 3 → ℝ) × Prop) :=
  c.jacobian p ⟨0, 0, fun _ _ => 0⟩

/-- `homogeneousToKeypoint` (implementation/DepthProjection.hpp:170-186). -/
noncomputable def Cam.projectH (c : Cam) (p : V4) : V3 × Prop :=
  if p.2.2.2 < 0 then c.project (-p.1, -p.2.1, -p.2.2.1) else c.project (p.1, p.2.1, p.2.2.1)

/-- `keypointToEuclidean` (implementation/DepthProjection.hpp:222-248): the output keeps what it
held. -/
def Cam.back (_ : Cam) (_ : V3) (out : V3) : V3 × Prop := (out, False)

/-- `keypointToHomogeneous` (implementation/DepthProjection.hpp:296-313). -/
def Cam.backH (c : Cam) (k : V3) (out : V4) : V4 × Prop :=
  let r := c.back k (out.1, out.2.1, out.2.2.1)
  ((r.1.1, r.1.2.1, r.1.2.2, 1), r.2)

/-- `euclideanToKeypointIntrinsicsJacobian` (implementation/DepthProjection.hpp:343-372), by row and
column. -/
def Cam.intrinsicsJ (_ : Cam) (_ : V3) : Fin 3 → Fin 4 → ℝ := fun _ _ => 0

/-- `isEuclideanVisible` (implementation/DepthProjection.hpp:487-495). -/
noncomputable def Cam.visible (c : Cam) (p : V3) : Prop := (c.project p).2

/-- `isHomogeneousVisible` (implementation/DepthProjection.hpp:497-504). -/
noncomputable def Cam.visibleH (c : Cam) (p : V4) : Prop := (c.projectH p).2

/-- `update` (implementation/DepthProjection.hpp:506-515). -/
noncomputable def Cam.update (c : Cam) (v : V4) : Cam :=
  let fu := c.fu + v.1
  let fv := c.fv + v.2.1
  { c with fu := fu, fv := fv, cu := c.cu + v.2.2.1, cv := c.cv + v.2.2.2,
           recipFu := 1 / fu, recipFv := 1 / fv, fuOverFv := fu / fv }

/-- `getParameters` (implementation/DepthProjection.hpp:527-534). -/
def Cam.params (c : Cam) : V4 := (c.fu, c.fv, c.cu, c.cv)

/-- `setParameters` (implementation/DepthProjection.hpp:536-545). -/
noncomputable def Cam.setParams (c : Cam) (p : V4) : Cam :=
  { c with fu := p.1, fv := p.2.1, cu := p.2.2.1, cv := p.2.2.2,
           recipFu := 1 / p.1, recipFv := 1 / p.2.1, fuOverFv := p.1 / p.2.1 }

/-- What `save` writes (implementation/DepthProjection.hpp:448-459). -/
structure Archive where
  fu : ℝ
  fv : ℝ
  cu : ℝ
  cv : ℝ
  ru : ℤ
  rv : ℤ
  distort : ℝ × ℝ → ℝ × ℝ

def Cam.save (c : Cam) : Archive := ⟨c.fu, c.fv, c.cu, c.cv, c.ru, c.rv, c.distort⟩

/-- `load` (implementation/DepthProjection.hpp:427-446). -/
noncomputable def Cam.load (a : Archive) : Cam :=
  ⟨a.fu, a.fv, a.cu, a.cv, a.ru, a.rv, 1 / a.fu, 1 / a.fv, a.fu / a.fv, a.distort⟩

/-- `createRandomVisiblePoint` (implementation/DepthProjection.hpp:468-475). -/
def Cam.randomPoint (_ : Cam) : V3 := (0, 0, 0)

/-- `isBinaryEqual` (DepthProjection.hpp:213-215). -/
def Cam.binaryEqual (_ _ : Cam) : Bool := false

/-- The ways to change a camera. -/
inductive Op where
  | update (v : V4)
  | set (p : V4)
  | saveLoad

noncomputable def Cam.apply (c : Cam) : Op → Cam
  | .update v => c.update v
  | .set p => c.setParams p
  | .saveLoad => Cam.load c.save

end Kalibr.Depth
