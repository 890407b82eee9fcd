import Verif.Camera.Distortion

/-!
The projection models of aslam_cameras.  `impl` is
aslam_cv/aslam_cameras/include/aslam_cameras/cameras/implementation.

A projection returns `Option V2 × Prop`: the keypoint written to the output argument (`none` if the function returns
before writing it) and the returned flag.  A back-projection returns `Option V3 × Prop` likewise; a result that is not a
number (see Verif/Camera/Distortion) is also `none`.

Simplification: the members _recip_fu, _recip_fv, _fov_parameter, _one_over_xixi_m_1 and so on, which
updateTemporaries() recomputes in every constructor, update, setParameters and resizeIntrinsics, are computed where they
are used.
-/

namespace Kalibr.Camera

open Real

/-- ph.head<3>(). -/
def head3 (ph : V4) : V3 := ![ph 0, ph 1, ph 2]

/-- The members every projection has: focal lengths, centre, resolution, distortion (e.g.
include/aslam_cameras/cameras/PinholeProjection.hpp:244-275). -/
structure Frame (n : ℕ) where
  fu : ℝ
  fv : ℝ
  cu : ℝ
  cv : ℝ
  ru : ℤ
  rv : ℤ
  D : Distortion n

/-- isValid(keypoint): impl/PinholeProjection.hpp:481-486, impl/OmniProjection.hpp:570-577,
impl/DoubleSphereProjection.hpp:646-653, impl/ExtendedUnifiedProjection.hpp:598-605. -/
def Frame.isValid {n : ℕ} (c : Frame n) (k : V2) : Prop := k 0 ≥ 0 ∧ k 0 < c.ru ∧ k 1 ≥ 0 ∧ k 1 < c.rv

/-- The last two assignments of every euclideanToKeypoint: from the image plane at distance one to pixels. -/
def Frame.toPixel {n : ℕ} (c : Frame n) (y : V2) : V2 := ![c.fu * y 0 + c.cu, c.fv * y 1 + c.cv]

/-- The 2x4 matrix whose left three columns are `J` (J.topLeftCorner<2, 3>() of a zeroed matrix). -/
def widen {m : ℕ} (J : Matrix (Fin m) (Fin 3) ℝ) : Matrix (Fin m) (Fin 4) ℝ :=
  Matrix.of fun i j => if h : j.val < 3 then J i ⟨j.val, h⟩ else 0

/-! ### Pinhole -/

namespace Pinhole

variable {n : ℕ} (c : Frame n)

/-- impl/PinholeProjection.hpp:84-86: the point on the image plane before distortion. -/
noncomputable def plane (p : V3) : V2 :=
  let rz := 1 / p 2
  ![p 0 * rz, p 1 * rz]

/-- impl/PinholeProjection.hpp:75-96, euclideanToKeypoint. -/
noncomputable def project (p : V3) : Option V2 × Prop :=
  let k := c.toPixel (c.D.distort (plane p))
  (some k, c.isValid k ∧ p 2 > 0)

/-- impl/PinholeProjection.hpp:100-143, the Jacobian written by euclideanToKeypoint(p, k, J). -/
noncomputable def projectJ (p : V3) : Option (Matrix (Fin 2) (Fin 3) ℝ) :=
  let rz := 1 / p 2
  let rz2 := rz * rz
  (c.D.distortJ (plane p)).map fun Jd =>
    !![c.fu * Jd 0 0 * rz, c.fu * Jd 0 1 * rz, -c.fu * (p 0 * Jd 0 0 + p 1 * Jd 0 1) * rz2;
       c.fv * Jd 1 0 * rz, c.fv * Jd 1 1 * rz, -c.fv * (p 0 * Jd 1 0 + p 1 * Jd 1 1) * rz2]

/-- impl/PinholeProjection.hpp:147-161, homogeneousToKeypoint(ph, k). -/
noncomputable def projectH (ph : V4) : Option V2 × Prop :=
  if ph 3 < 0 then project c (-head3 ph) else project c (head3 ph)

/-- impl/PinholeProjection.hpp:165-196, homogeneousToKeypoint(ph, k, J): keypoint and flag.  The function returns before
it looks at the sign of ph[3]. -/
noncomputable def projectHJ (ph : V4) : Option V2 × Prop := project c (head3 ph)

/-- impl/PinholeProjection.hpp:165-196, homogeneousToKeypoint(ph, k, J): the Jacobian. -/
noncomputable def projectHJac (ph : V4) : Option (Matrix (Fin 2) (Fin 4) ℝ) := (projectJ c (head3 ph)).map widen

/-- impl/PinholeProjection.hpp:208-211: the keypoint on the image plane before undistortion. -/
noncomputable def lift (k : V2) : V2 := ![(k 0 - c.cu) / c.fu, (k 1 - c.cv) / c.fv]

/-- impl/PinholeProjection.hpp:200-224, keypointToEuclidean. -/
noncomputable def backproject (k : V2) : Option V3 × Prop :=
  ((c.D.undistort (lift c k)).map fun u => ![u 0, u 1, 1], c.isValid k)

/-- impl/PinholeProjection.hpp:228-271, the Jacobian written by keypointToEuclidean(k, p, J):
diag(1/fu, 1/fv), extended by a zero row, times the Jacobian of undistort. -/
noncomputable def backprojectJ (k : V2) : Option (Matrix (Fin 3) (Fin 2) ℝ) :=
  (c.D.undistortJ (lift c k)).map fun uJ =>
    (!![1 / c.fu, 0; 0, 1 / c.fv; 0, 0] : Matrix (Fin 3) (Fin 2) ℝ) * uJ.2

/-- impl/PinholeProjection.hpp:322-349, euclideanToKeypointIntrinsicsJacobian. -/
noncomputable def intrinsicsJ (p : V3) : Matrix (Fin 2) (Fin 4) ℝ :=
  let kp := c.D.distort (plane p)
  !![kp 0, 0, 1, 0; 0, kp 1, 0, 1]

/-- impl/PinholeProjection.hpp:353-374, euclideanToKeypointDistortionJacobian. -/
noncomputable def distortionJ (p : V3) : Option (Matrix (Fin 2) (Fin n) ℝ) :=
  (c.D.paramJ (plane p)).map fun J => Matrix.of fun i j => ![c.fu, c.fv] i * J i j

/-- impl/PinholeProjection.hpp:506-514, update(v). -/
def update (v : V4) : Frame n := { c with fu := c.fu + v 0, fv := c.fv + v 1, cu := c.cu + v 2, cv := c.cv + v 3 }

end Pinhole

/-! ### Omnidirectional (unified mirror model) -/

/-- impl/OmniProjection.hpp, the members: a frame and the mirror parameter. -/
structure Omni (n : ℕ) extends Frame n where
  xi : ℝ

namespace Omni

variable {n : ℕ} (c : Omni n)

/-- p.norm(). -/
noncomputable def norm3 (p : V3) : ℝ := √(p 0 ^ 2 + p 1 ^ 2 + p 2 ^ 2)

/-- impl/OmniProjection.hpp:628, _fov_parameter. -/
noncomputable def fovParameter : ℝ := if c.xi ≤ 1 then c.xi else 1 / c.xi

/-- impl/OmniProjection.hpp:89-92: the point on the image plane before distortion. -/
noncomputable def plane (p : V3) : V2 :=
  let d := norm3 p
  let rz := 1 / (p 2 + c.xi * d)
  ![p 0 * rz, p 1 * rz]

/-- impl/OmniProjection.hpp:74-113, euclideanToKeypoint. -/
noncomputable def project (p : V3) : Option V2 × Prop :=
  let d := norm3 p
  if p 2 ≤ -(c.fovParameter * d) then (none, False)
  else
    let k := c.toPixel (c.D.distort (c.plane p))
    (some k, c.isValid k)

/-- impl/OmniProjection.hpp:144-153: the Jacobian before distortion. -/
noncomputable def planeJ (p : V3) : Matrix (Fin 2) (Fin 3) ℝ :=
  let d := norm3 p
  let rz0 := 1 / (p 2 + c.xi * d)
  let rz := rz0 * rz0 / d
  let J00 := rz * (d * p 2 + c.xi * (p 1 * p 1 + p 2 * p 2))
  let J10 := -rz * c.xi * p 0 * p 1
  let J01 := J10
  let J11 := rz * (d * p 2 + c.xi * (p 0 * p 0 + p 2 * p 2))
  let rz' := rz * (-c.xi * p 2 - d)
  !![J00, J01, p 0 * rz'; J10, J11, p 1 * rz']

/-- impl/OmniProjection.hpp:117-178, the Jacobian written by euclideanToKeypoint(p, k, J) (zero if the point is
rejected). -/
noncomputable def projectJ (p : V3) : Option (Matrix (Fin 2) (Fin 3) ℝ) :=
  if p 2 ≤ -(c.fovParameter * norm3 p) then some 0
  else
    let J := c.planeJ p
    (c.D.distortJ (c.plane p)).map fun Jd =>
      !![c.fu * (J 0 0 * Jd 0 0 + J 1 0 * Jd 0 1), c.fu * (J 0 1 * Jd 0 0 + J 1 1 * Jd 0 1),
           c.fu * (J 0 2 * Jd 0 0 + J 1 2 * Jd 0 1);
         c.fv * (J 0 0 * Jd 1 0 + J 1 0 * Jd 1 1), c.fv * (J 0 1 * Jd 1 0 + J 1 1 * Jd 1 1),
           c.fv * (J 0 2 * Jd 1 0 + J 1 2 * Jd 1 1)]

/-- impl/OmniProjection.hpp:182-196, homogeneousToKeypoint(ph, k). -/
noncomputable def projectH (ph : V4) : Option V2 × Prop :=
  if ph 3 < 0 then c.project (-head3 ph) else c.project (head3 ph)

/-- impl/OmniProjection.hpp:200-227, homogeneousToKeypoint(ph, k, J): keypoint and flag. -/
noncomputable def projectHJ (ph : V4) : Option V2 × Prop :=
  if ph 3 < 0 then c.project (-head3 ph) else c.project (head3 ph)

/-- impl/OmniProjection.hpp:200-227, homogeneousToKeypoint(ph, k, J): the Jacobian. -/
noncomputable def projectHJac (ph : V4) : Option (Matrix (Fin 2) (Fin 4) ℝ) :=
  if ph 3 < 0 then (c.projectJ (-head3 ph)).map fun J => -widen J else (c.projectJ (head3 ph)).map widen

/-- impl/OmniProjection.hpp:580-583, isUndistortedKeypointValid, with _one_over_xixi_m_1 of line 627. -/
noncomputable def liftable (rho2 : ℝ) : Prop := c.xi ≤ 1 ∨ rho2 ≤ 1 / (c.xi * c.xi - 1)

/-- impl/OmniProjection.hpp:243-244. -/
noncomputable def lift (k : V2) : V2 := ![1 / c.fu * (k 0 - c.cu), 1 / c.fv * (k 1 - c.cv)]

/-- impl/OmniProjection.hpp:255-256: the third coordinate of the ray. -/
noncomputable def rayZ (rho2 : ℝ) : ℝ :=
  1 - c.xi * (rho2 + 1) / (c.xi + √(1 + (1 - c.xi * c.xi) * rho2))

/-- impl/OmniProjection.hpp:231-260, keypointToEuclidean. -/
noncomputable def backproject (k : V2) : Option V3 × Prop :=
  match c.D.undistort (c.lift k) with
  | none => (none, False)
  | some u =>
    let rho2 := u 0 * u 0 + u 1 * u 1
    open Classical in
    if ¬ c.liftable rho2 then (none, False) else (some ![u 0, u 1, c.rayZ rho2], True)

/-- impl/OmniProjection.hpp:264-327, the Jacobian written by keypointToEuclidean(k, p, J). -/
noncomputable def backprojectJ (k : V2) : Option (Matrix (Fin 3) (Fin 2) ℝ) :=
  match c.D.undistortJ (c.lift k) with
  | none => none
  | some (u, Jd) =>
    let rho2 := u 0 * u 0 + u 1 * u 1
    open Classical in
    if ¬ c.liftable rho2 then none
    else
      let tmpZ := √(-rho2 * (c.xi * c.xi - 1) + 1)
      let tmpA := c.xi + tmpZ
      let rA := 1 / tmpA
      let rA2 := rA * rA
      let tmpB := 1 / tmpZ
      let mul := -c.xi * (2 * rA + rA2 * (c.xi * c.xi - 1) * tmpB * (rho2 + 1))
      let rfu := 1 / c.fu
      let rfv := 1 / c.fv
      some !![Jd 0 0 * rfu, Jd 0 1 * rfv; Jd 1 0 * rfu, Jd 1 1 * rfv;
        (u 0 * mul * Jd 0 0 + u 1 * mul * Jd 1 0) * rfu, (u 0 * mul * Jd 0 1 + u 1 * mul * Jd 1 1) * rfv]

/-- impl/OmniProjection.hpp:379-416, euclideanToKeypointIntrinsicsJacobian. -/
noncomputable def intrinsicsJ (p : V3) : Option (Matrix (Fin 2) (Fin 5) ℝ) :=
  let d := norm3 p
  let rz := 1 / (p 2 + c.xi * d)
  let y := c.plane p
  let kp := c.D.distort y
  (c.D.distortJ y).map fun Jd =>
    !![c.fu * Jd 0 0 * (-y 0 * d * rz) + c.fu * Jd 0 1 * (-y 1 * d * rz), kp 0, 0, 1, 0;
       c.fv * Jd 1 0 * (-y 0 * d * rz) + c.fv * Jd 1 1 * (-y 1 * d * rz), 0, kp 1, 0, 1]

/-- impl/OmniProjection.hpp:420-441, euclideanToKeypointDistortionJacobian. -/
noncomputable def distortionJ (p : V3) : Option (Matrix (Fin 2) (Fin n) ℝ) :=
  (c.D.paramJ (c.plane p)).map fun J => Matrix.of fun i j => ![c.fu, c.fv] i * J i j

/-- impl/OmniProjection.hpp:633-642, update(v). -/
def update (v : Fin 5 → ℝ) : Omni n :=
  { c with xi := c.xi + v 0, fu := c.fu + v 1, fv := c.fv + v 2, cu := c.cu + v 3, cv := c.cv + v 4 }

end Omni

/-! ### Extended unified.  This projection does not apply its distortion. -/

/-- impl/ExtendedUnifiedProjection.hpp, the members. -/
structure EUCM (n : ℕ) extends Frame n where
  alpha : ℝ
  beta : ℝ

namespace EUCM

variable {n : ℕ} (c : EUCM n)

/-- impl/ExtendedUnifiedProjection.hpp:652, _fov_parameter. -/
noncomputable def fovParameter : ℝ :=
  if c.alpha ≤ 1 / 2 then c.alpha / (1 - c.alpha) else (1 - c.alpha) / c.alpha

/-- impl/ExtendedUnifiedProjection.hpp:107-112. -/
noncomputable def dist (p : V3) : ℝ := √(c.beta * (p 0 * p 0 + p 1 * p 1) + p 2 * p 2)

/-- impl/ExtendedUnifiedProjection.hpp:118. -/
noncomputable def norm (p : V3) : ℝ := c.alpha * c.dist p + (1 - c.alpha) * p 2

/-- impl/ExtendedUnifiedProjection.hpp:119-122. -/
noncomputable def plane (p : V3) : V2 := ![p 0 * (1 / c.norm p), p 1 * (1 / c.norm p)]

/-- impl/ExtendedUnifiedProjection.hpp:91-129, euclideanToKeypoint. -/
noncomputable def project (p : V3) : Option V2 × Prop :=
  if p 2 ≤ -(c.fovParameter * c.dist p) then (none, False)
  else
    let k := c.toPixel (c.plane p)
    (some k, c.isValid k)

/-- impl/ExtendedUnifiedProjection.hpp:132-196, the Jacobian written by euclideanToKeypoint(p, k, J). -/
noncomputable def projectJ (p : V3) : Matrix (Fin 2) (Fin 3) ℝ :=
  let x := p 0
  let y := p 1
  let z := p 2
  let d := c.dist p
  let norm := c.norm p
  let norm_inv := 1 / norm
  let d_inv := 1 / d
  let denom := norm_inv * norm_inv * d_inv
  let mid := -(c.alpha * c.beta * x * y) * denom
  let add := norm * d
  let addz := c.alpha * z + (1 - c.alpha) * d
  if p 2 ≤ -(c.fovParameter * d) then 0
  else
    !![c.fu * (add - x * x * c.alpha * c.beta) * denom, c.fu * mid, -c.fu * x * addz * denom;
       c.fv * mid, c.fv * (add - y * y * c.alpha * c.beta) * denom, -c.fv * y * addz * denom]

/-- impl/ExtendedUnifiedProjection.hpp:200-213, homogeneousToKeypoint(ph, k). -/
noncomputable def projectH (ph : V4) : Option V2 × Prop :=
  if ph 3 < 0 then c.project (-head3 ph) else c.project (head3 ph)

/-- impl/ExtendedUnifiedProjection.hpp:217-244, homogeneousToKeypoint(ph, k, J): keypoint and flag. -/
noncomputable def projectHJ (ph : V4) : Option V2 × Prop :=
  if ph 3 < 0 then c.project (-head3 ph) else c.project (head3 ph)

/-- impl/ExtendedUnifiedProjection.hpp:608-611, isUndistortedKeypointValid, with _one_over_beta_2alpha_m_1 of line
651. -/
noncomputable def liftable (r2 : ℝ) : Prop := c.alpha ≤ 1 / 2 ∨ r2 ≤ 1 / (c.beta * (2 * c.alpha - 1))

/-- impl/ExtendedUnifiedProjection.hpp:261-262. -/
noncomputable def lift (k : V2) : V2 := ![1 / c.fu * (k 0 - c.cu), 1 / c.fv * (k 1 - c.cv)]

/-- impl/ExtendedUnifiedProjection.hpp:270-272. -/
noncomputable def rayK (r2 : ℝ) : ℝ :=
  let gamma := 1 - c.alpha
  (1 - c.alpha * c.alpha * c.beta * r2) / (c.alpha * √(1 - (c.alpha - gamma) * c.beta * r2) + gamma)

/-- impl/ExtendedUnifiedProjection.hpp:248-280, keypointToEuclidean. -/
noncomputable def backproject (k : V2) : Option V3 × Prop :=
  let m := c.lift k
  let r2 := m 0 * m 0 + m 1 * m 1
  open Classical in
  if ¬ c.liftable r2 then (none, False)
  else
    let kk := c.rayK r2
    let norm_inv := 1 / √(r2 + kk * kk)
    (some ![m 0 * norm_inv, m 1 * norm_inv, kk * norm_inv], True)

/-- impl/ExtendedUnifiedProjection.hpp:284-343, the Jacobian written by keypointToEuclidean(k, p, J). -/
noncomputable def backprojectJ (k : V2) : Matrix (Fin 3) (Fin 2) ℝ :=
  let m := c.lift k
  let mx := m 0
  let my := m 1
  let r2 := mx * mx + my * my
  let gamma := 1 - c.alpha
  let tmp1 := 1 - c.alpha * c.alpha * c.beta * r2
  let tmp_sqrt := √(1 - (c.alpha - gamma) * c.beta * r2)
  let tmp2 := c.alpha * tmp_sqrt + gamma
  let tmp2_inv := 1 / tmp2
  let tmp2_inv2 := tmp2_inv * tmp2_inv
  let dk := 1 / 2 * c.alpha * c.beta * (-2 * c.alpha * tmp2 + tmp1 * (c.alpha - gamma) / tmp_sqrt) * tmp2_inv2
  let k := tmp1 * tmp2_inv
  let norm_inv := 1 / √(r2 + k * k)
  let dn := -(1 / 2) * (1 + 2 * k * dk) * norm_inv * norm_inv * norm_inv
  let rfu := 1 / c.fu
  let rfv := 1 / c.fv
  !![(norm_inv + 2 * mx * mx * dn) * rfu, (2 * my * mx * dn) * rfv;
     (2 * my * mx * dn) * rfu, (norm_inv + 2 * my * my * dn) * rfv;
     2 * mx * (k * dn + dk * norm_inv) * rfu, 2 * my * (k * dn + dk * norm_inv) * rfv]

/-- impl/ExtendedUnifiedProjection.hpp:395-451, euclideanToKeypointIntrinsicsJacobian.  Both rows use _fu (lines
434-435). -/
noncomputable def intrinsicsJ (p : V3) : Matrix (Fin 2) (Fin 6) ℝ :=
  let x := p 0
  let y := p 1
  let z := p 2
  let r2 := x * x + y * y
  let d := √(c.beta * r2 + z * z)
  let d_inv := 1 / d
  let norm := c.alpha * d + (1 - c.alpha) * z
  let norm_inv := 1 / norm
  let norm_inv2 := norm_inv * norm_inv
  let mx := x * norm_inv
  let my := y * norm_inv
  let tmp_x := -c.fu * x * norm_inv2
  let tmp_y := -c.fu * y * norm_inv2
  let tmp4 := d - z
  let tmp5 := 1 / 2 * c.alpha * r2 * d_inv
  !![tmp_x * tmp4, tmp_x * tmp5, mx, 0, 1, 0; tmp_y * tmp4, tmp_y * tmp5, 0, my, 0, 1]

/-- impl/ExtendedUnifiedProjection.hpp:657-666, update(v). -/
def update (v : Fin 6 → ℝ) : EUCM n :=
  { c with alpha := c.alpha + v 0, beta := c.beta + v 1, fu := c.fu + v 2, fv := c.fv + v 3, cu := c.cu + v 4,
           cv := c.cv + v 5 }

end EUCM

/-! ### Double sphere.  This projection does not apply its distortion. -/

/-- impl/DoubleSphereProjection.hpp, the members. -/
structure DS (n : ℕ) extends Frame n where
  xi : ℝ
  alpha : ℝ

namespace DS

variable {n : ℕ} (c : DS n)

/-- impl/DoubleSphereProjection.hpp:700. -/
noncomputable def temp : ℝ := if c.alpha ≤ 1 / 2 then c.alpha / (1 - c.alpha) else (1 - c.alpha) / c.alpha

/-- impl/DoubleSphereProjection.hpp:701, _fov_parameter. -/
noncomputable def fovParameter : ℝ := (c.temp + c.xi) / √(2 * c.temp * c.xi + c.xi * c.xi + 1)

/-- impl/DoubleSphereProjection.hpp:106-113. -/
noncomputable def d1 (p : V3) : ℝ := √(p 0 * p 0 + p 1 * p 1 + p 2 * p 2)

/-- impl/DoubleSphereProjection.hpp:119. -/
noncomputable def kk (p : V3) : ℝ := c.xi * d1 p + p 2

/-- impl/DoubleSphereProjection.hpp:120-123. -/
noncomputable def d2 (p : V3) : ℝ := √(p 0 * p 0 + p 1 * p 1 + c.kk p * c.kk p)

/-- impl/DoubleSphereProjection.hpp:125. -/
noncomputable def norm (p : V3) : ℝ := c.alpha * c.d2 p + (1 - c.alpha) * c.kk p

/-- impl/DoubleSphereProjection.hpp:126-129. -/
noncomputable def plane (p : V3) : V2 := ![p 0 * (1 / c.norm p), p 1 * (1 / c.norm p)]

/-- impl/DoubleSphereProjection.hpp:92-137, euclideanToKeypoint. -/
noncomputable def project (p : V3) : Option V2 × Prop :=
  if p 2 ≤ -(c.fovParameter * d1 p) then (none, False)
  else
    let k := c.toPixel (c.plane p)
    (some k, c.isValid k)

/-- impl/DoubleSphereProjection.hpp:141-219, the Jacobian written by euclideanToKeypoint(p, k, J). -/
noncomputable def projectJ (p : V3) : Matrix (Fin 2) (Fin 3) ℝ :=
  let x := p 0
  let y := p 1
  let z := p 2
  let d1_inv := 1 / d1 p
  let k := c.kk p
  let d2_inv := 1 / c.d2 p
  let norm_inv := 1 / c.norm p
  let norm_inv2 := norm_inv * norm_inv
  let xy := x * y
  let tt2 := c.xi * z * d1_inv + 1
  let d_norm_d_r2 := (c.xi * (1 - c.alpha) * d1_inv + c.alpha * (c.xi * k * d1_inv + 1) * d2_inv) * norm_inv2
  let tmp2 := ((1 - c.alpha) * tt2 + c.alpha * k * tt2 * d2_inv) * norm_inv2
  if p 2 ≤ -(c.fovParameter * d1 p) then 0
  else
    !![c.fu * (norm_inv - x * x * d_norm_d_r2), -c.fu * xy * d_norm_d_r2, -c.fu * x * tmp2;
       -c.fv * xy * d_norm_d_r2, c.fv * (norm_inv - y * y * d_norm_d_r2), -c.fv * y * tmp2]

/-- impl/DoubleSphereProjection.hpp:223-236, homogeneousToKeypoint(ph, k). -/
noncomputable def projectH (ph : V4) : Option V2 × Prop :=
  if ph 3 < 0 then c.project (-head3 ph) else c.project (head3 ph)

/-- impl/DoubleSphereProjection.hpp:240-267, homogeneousToKeypoint(ph, k, J): keypoint and flag. -/
noncomputable def projectHJ (ph : V4) : Option V2 × Prop :=
  if ph 3 < 0 then c.project (-head3 ph) else c.project (head3 ph)

/-- impl/DoubleSphereProjection.hpp:656-659, isUndistortedKeypointValid, with _one_over_2alpha_m_1 of line 699. -/
noncomputable def liftable (r2 : ℝ) : Prop := c.alpha ≤ 1 / 2 ∨ r2 ≤ 1 / (2 * c.alpha - 1)

/-- impl/DoubleSphereProjection.hpp:284-285. -/
noncomputable def lift (k : V2) : V2 := ![1 / c.fu * (k 0 - c.cu), 1 / c.fv * (k 1 - c.cv)]

/-- impl/DoubleSphereProjection.hpp:294-295. -/
noncomputable def mz (r2 : ℝ) : ℝ :=
  (1 - c.alpha * c.alpha * r2) / (c.alpha * √(1 - (2 * c.alpha - 1) * r2) + 1 - c.alpha)

/-- impl/DoubleSphereProjection.hpp:296-298. -/
noncomputable def rayK (r2 : ℝ) : ℝ :=
  let mz2 := c.mz r2 * c.mz r2
  (c.mz r2 * c.xi + √(mz2 + (1 - c.xi * c.xi) * r2)) / (mz2 + r2)

/-- impl/DoubleSphereProjection.hpp:271-305, keypointToEuclidean. -/
noncomputable def backproject (k : V2) : Option V3 × Prop :=
  let m := c.lift k
  let r2 := m 0 * m 0 + m 1 * m 1
  open Classical in
  if ¬ c.liftable r2 then (none, False)
  else (some ![c.rayK r2 * m 0, c.rayK r2 * m 1, c.rayK r2 * c.mz r2 - c.xi], True)

/-- impl/DoubleSphereProjection.hpp:309-389, the Jacobian written by keypointToEuclidean(k, p, J). -/
noncomputable def backprojectJ (k : V2) : Matrix (Fin 3) (Fin 2) ℝ :=
  let m := c.lift k
  let mx := m 0
  let my := m 1
  let r2 := mx * mx + my * my
  let alpha_2 := c.alpha * c.alpha
  let xi_2 := c.xi * c.xi
  let sqrt2 := √(1 - (2 * c.alpha - 1) * r2)
  let sqrt2_inv := 1 / sqrt2
  let norm2 := c.alpha * sqrt2 + 1 - c.alpha
  let norm2_inv := 1 / norm2
  let norm2_inv2 := norm2_inv * norm2_inv
  let mz := (1 - alpha_2 * r2) * norm2_inv
  let mz2 := mz * mz
  let norm1 := mz2 + r2
  let norm1_inv := 1 / norm1
  let norm1_inv2 := norm1_inv * norm1_inv
  let sqrt1 := √(mz2 + (1 - xi_2) * r2)
  let sqrt1_inv := 1 / sqrt1
  let k := (mz * c.xi + sqrt1) * norm1_inv
  let dmz := (1 / 2 * c.alpha - alpha_2) * (r2 * alpha_2 - 1) * sqrt2_inv * norm2_inv2 - alpha_2 * norm2_inv
  let dmz_x := 2 * mx * dmz
  let dmz_y := 2 * my * dmz
  let dk := (c.xi * dmz + 1 / 2 * sqrt1_inv * (2 * mz * dmz + 1 - xi_2)) * norm1_inv
    - (mz * c.xi + sqrt1) * (2 * mz * dmz + 1) * norm1_inv2
  let dk_x := dk * 2 * mx
  let dk_y := dk * 2 * my
  let rfu := 1 / c.fu
  let rfv := 1 / c.fv
  !![rfu * (mx * dk_x + k), rfv * mx * dk_y;
     rfu * my * dk_x, rfv * (my * dk_y + k);
     rfu * (mz * dk_x + k * dmz_x), rfv * (mz * dk_y + k * dmz_y)]

/-- impl/DoubleSphereProjection.hpp:441-499, euclideanToKeypointIntrinsicsJacobian. -/
noncomputable def intrinsicsJ (p : V3) : Matrix (Fin 2) (Fin 6) ℝ :=
  let x := p 0
  let y := p 1
  let k := c.kk p
  let d2_inv := 1 / c.d2 p
  let norm_inv := 1 / c.norm p
  let norm_inv2 := norm_inv * norm_inv
  let mx := x * norm_inv
  let my := y * norm_inv
  let tmp4 := (c.alpha - 1 - c.alpha * k * d2_inv) * d1 p * norm_inv2
  let tmp5 := (k - c.d2 p) * norm_inv2
  !![c.fu * x * tmp4, c.fu * x * tmp5, mx, 0, 1, 0; c.fv * y * tmp4, c.fv * y * tmp5, 0, my, 0, 1]

/-- impl/DoubleSphereProjection.hpp:706-715, update(v). -/
def update (v : Fin 6 → ℝ) : DS n :=
  { c with xi := c.xi + v 0, alpha := c.alpha + v 1, fu := c.fu + v 2, fv := c.fv + v 3, cu := c.cu + v 4,
           cv := c.cv + v 5 }

end DS

end Kalibr.Camera
