import Verif.Camera.Spec
import Mathlib.Analysis.SpecialFunctions.Trigonometric.Arctan
import Mathlib.Analysis.SpecialFunctions.Pow.Real
import Mathlib.Data.Matrix.Mul
import Mathlib.LinearAlgebra.Matrix.NonsingularInverse

/-!
The lens distortion models of aslam_cameras.  Numbers are exact reals.  Where the C++ code divides zero by zero or
inverts a singular matrix, so that its floating point result is not a number, the model returns `none`; a call that
raises an exception also returns `none`.  In the rest of this development `impl` is the directory
aslam_cv/aslam_cameras/include/aslam_cameras/cameras/implementation.
-/

namespace Kalibr.Camera

open Real

abbrev V2 := Fin 2 → ℝ
abbrev V3 := Fin 3 → ℝ
abbrev V4 := Fin 4 → ℝ
abbrev M2 := Matrix (Fin 2) (Fin 2) ℝ

/-- The interface a projection uses from its DISTORTION_T parameter, with the distortion parameters fixed. -/
structure Distortion (n : ℕ) where
  /-- distort(y). -/
  distort : V2 → V2
  /-- distort(y, J): the Jacobian. -/
  distortJ : V2 → Option M2
  /-- undistort(y). -/
  undistort : V2 → Option V2
  /-- undistort(y, J): point and Jacobian. -/
  undistortJ : V2 → Option (V2 × M2)
  /-- distortParameterJacobian(y, J). -/
  paramJ : V2 → Option (Matrix (Fin 2) (Fin n) ℝ)

/-- impl/NoDistortion.hpp:4-52: nothing is changed, the Jacobians are the identity, there are no parameters. -/
noncomputable def noDistortion : Distortion 0 where
  distort := fun y => y
  distortJ := fun _ => some 1
  undistort := fun y => some y
  undistortJ := fun y => some (y, 1)
  paramJ := fun _ => some (Matrix.of fun _ j => j.elim0)

/-! Radial-tangential distortion; the parameters are (k1, k2, p1, p2) in the order of getParameters
(src/RadialTangentialDistortion.cpp:49-55). -/

/-- impl/RadialTangentialDistortion.hpp:5-25. -/
noncomputable def radtanDistort (k : V4) (y : V2) : V2 :=
  let mx2 := y 0 * y 0
  let my2 := y 1 * y 1
  let mxy := y 0 * y 1
  let rho2 := mx2 + my2
  let rad := k 0 * rho2 + k 1 * rho2 * rho2
  ![y 0 + (y 0 * rad + 2 * k 2 * mxy + k 3 * (rho2 + 2 * mx2)),
    y 1 + (y 1 * rad + 2 * k 3 * mxy + k 2 * (rho2 + 2 * my2))]

/-- impl/RadialTangentialDistortion.hpp:28-65. -/
noncomputable def radtanJ (k : V4) (y : V2) : M2 :=
  let mx2 := y 0 * y 0
  let my2 := y 1 * y 1
  let rho2 := mx2 + my2
  let rad := k 0 * rho2 + k 1 * rho2 * rho2
  let c := k 0 * 2 * y 0 * y 1 + k 1 * 4 * rho2 * y 0 * y 1 + k 2 * 2 * y 0 + 2 * k 3 * y 1
  !![1 + rad + k 0 * 2 * mx2 + k 1 * rho2 * 4 * mx2 + 2 * k 2 * y 1 + 6 * k 3 * y 0, c;
     c, 1 + rad + k 0 * 2 * my2 + k 1 * rho2 * 4 * my2 + 6 * k 2 * y 1 + 2 * k 3 * y 0]

/-- The loop at impl/RadialTangentialDistortion.hpp:83-97 with `n` iterations left: one Gauss-Newton step, then stop if
the residual before the step was small.  A singular Jacobian gives infinities and then NaN. -/
noncomputable def radtanLoop (k : V4) (y : V2) : ℕ → V2 → Option V2
  | 0, yb => some yb
  | n + 1, yb =>
    let F := radtanJ k yb
    let e := y - radtanDistort k yb
    open Classical in
    if F.det = 0 then none else
    let yb' := yb + (F.transpose * F)⁻¹.mulVec (F.transpose.mulVec e)
    if dotProduct e e < 1 / 10 ^ 15 then some yb' else radtanLoop k y n yb'

/-- impl/RadialTangentialDistortion.hpp:68-100. -/
noncomputable def radtanUndistort (k : V4) (y : V2) : Option V2 := radtanLoop k y 5 y

/-- impl/RadialTangentialDistortion.hpp:102-128: the Jacobian is the inverse of the distortion's Jacobian at the
result. -/
noncomputable def radtanUndistortJ (k : V4) (y : V2) : Option (V2 × M2) :=
  open Classical in
  match radtanUndistort k y with
  | none => none
  | some u => if (radtanJ k u).det = 0 then none else some (u, (radtanJ k u)⁻¹)

/-- impl/RadialTangentialDistortion.hpp:153-182. -/
noncomputable def radtanParamJ (y : V2) : Matrix (Fin 2) (Fin 4) ℝ :=
  let r2 := y 0 * y 0 + y 1 * y 1
  let r4 := r2 * r2
  !![y 0 * r2, y 0 * r4, 2 * y 0 * y 1, r2 + 2 * y 0 * y 0;
     y 1 * r2, y 1 * r4, r2 + 2 * y 1 * y 1, 2 * y 0 * y 1]

/-- impl/RadialTangentialDistortion.hpp as a distortion. -/
noncomputable def radtan (k : V4) : Distortion 4 where
  distort := radtanDistort k
  distortJ := fun y => some (radtanJ k y)
  undistort := radtanUndistort k
  undistortJ := radtanUndistortJ k
  paramJ := fun y => some (radtanParamJ y)

/-! Equidistant distortion; the parameters are (k1, k2, k3, k4) (src/EquidistantDistortion.cpp:46-52). -/

/-- The polynomial 1 + k1 t^2 + k2 t^4 + k3 t^6 + k4 t^8 of impl/EquidistantDistortion.hpp:22-24 and 203-208. -/
noncomputable def eqPoly (k : V4) (t : ℝ) : ℝ :=
  let t2 := t * t
  let t4 := t2 * t2
  let t6 := t4 * t2
  let t8 := t4 * t4
  1 + k 0 * t2 + k 1 * t4 + k 2 * t6 + k 3 * t8

/-- impl/EquidistantDistortion.hpp:5-29. -/
noncomputable def eqDistort (k : V4) (y : V2) : V2 :=
  let r := √(y 0 * y 0 + y 1 * y 1)
  let t := arctan r
  let td := t * eqPoly k t
  let scaling := if r > 1 / 10 ^ 8 then td / r else 1
  ![y 0 * scaling, y 1 * scaling]

/-- impl/EquidistantDistortion.hpp:52-167, the generated Jacobian; the repeated subexpressions
y[0]*y[0]+y[1]*y[1], its square root and the arc tangent of that are named `s`, `r`, `t`. -/
noncomputable def eqJ (k : V4) (y : V2) : M2 :=
  let s := y 0 * y 0 + y 1 * y 1
  let r := √s
  let t := arctan r
  !![
    t * 1 / r * (k 0 * t ^ 2 + k 1 * t ^ 4 + k 2 * t ^ 6 + k 3 * t ^ 8 + 1) + y 0 * t * 1 / r * ((k 1 * y 0 * t
      ^ 3 * 1 / r * 4) / (s + 1) + (k 2 * y 0 * t ^ 5 * 1 / r * 6) / (s + 1) + (k 3 * y 0 * t ^ 7 * 1 / r * 8) /
      (s + 1) + (k 0 * y 0 * t * 1 / r * 2) / (s + 1)) + ((y 0 * y 0) * (k 0 * t ^ 2 + k 1 * t ^ 4 + k 2 * t ^ 6
      + k 3 * t ^ 8 + 1)) / ((s) * (s + 1)) - (y 0 * y 0) * t * 1 / s ^ (3 / 2 : ℝ) * (k 0 * t ^ 2 + k 1 * t ^ 4
      + k 2 * t ^ 6 + k 3 * t ^ 8 + 1),
    y 0 * t * 1 / r * ((k 1 * y 1 * t ^ 3 * 1 / r * 4) / (s + 1) + (k 2 * y 1 * t ^ 5 * 1 / r * 6) / (s + 1) +
      (k 3 * y 1 * t ^ 7 * 1 / r * 8) / (s + 1) + (k 0 * y 1 * t * 1 / r * 2) / (s + 1)) + (y 0 * y 1 * (k 0 * t
      ^ 2 + k 1 * t ^ 4 + k 2 * t ^ 6 + k 3 * t ^ 8 + 1)) / ((s) * (s + 1)) - y 0 * y 1 * t * 1 / s ^ (3 / 2 :
      ℝ) * (k 0 * t ^ 2 + k 1 * t ^ 4 + k 2 * t ^ 6 + k 3 * t ^ 8 + 1);
    y 1 * t * 1 / r * ((k 1 * y 0 * t ^ 3 * 1 / r * 4) / (s + 1) + (k 2 * y 0 * t ^ 5 * 1 / r * 6) / (s + 1) +
      (k 3 * y 0 * t ^ 7 * 1 / r * 8) / (s + 1) + (k 0 * y 0 * t * 1 / r * 2) / (s + 1)) + (y 0 * y 1 * (k 0 * t
      ^ 2 + k 1 * t ^ 4 + k 2 * t ^ 6 + k 3 * t ^ 8 + 1)) / ((s) * (s + 1)) - y 0 * y 1 * t * 1 / s ^ (3 / 2 :
      ℝ) * (k 0 * t ^ 2 + k 1 * t ^ 4 + k 2 * t ^ 6 + k 3 * t ^ 8 + 1),
    t * 1 / r * (k 0 * t ^ 2 + k 1 * t ^ 4 + k 2 * t ^ 6 + k 3 * t ^ 8 + 1) + y 1 * t * 1 / r * ((k 1 * y 1 * t
      ^ 3 * 1 / r * 4) / (s + 1) + (k 2 * y 1 * t ^ 5 * 1 / r * 6) / (s + 1) + (k 3 * y 1 * t ^ 7 * 1 / r * 8) /
      (s + 1) + (k 0 * y 1 * t * 1 / r * 2) / (s + 1)) + ((y 1 * y 1) * (k 0 * t ^ 2 + k 1 * t ^ 4 + k 2 * t ^ 6
      + k 3 * t ^ 8 + 1)) / ((s) * (s + 1)) - (y 1 * y 1) * t * 1 / s ^ (3 / 2 : ℝ) * (k 0 * t ^ 2 + k 1 * t ^ 4
      + k 2 * t ^ 6 + k 3 * t ^ 8 + 1)]

/-- The loop at impl/EquidistantDistortion.hpp:199-206 with `n` iterations left.  A zero denominator gives an infinite
angle, modelled as no result. -/
noncomputable def eqLoop (k : V4) (td : ℝ) : ℕ → ℝ → Option ℝ
  | 0, t => some t
  | n + 1, t => open Classical in if eqPoly k t = 0 then none else eqLoop k td n (td / eqPoly k t)

/-- impl/EquidistantDistortion.hpp:186-211.  At the centre tan(0)/0 is not a number. -/
noncomputable def eqUndistort (k : V4) (y : V2) : Option V2 :=
  let td := √(y 0 * y 0 + y 1 * y 1)
  open Classical in
  match eqLoop k td 20 td with
  | none => none
  | some t => if td = 0 then none else some ![y 0 * (tan t / td), y 1 * (tan t / td)]

/-- impl/EquidistantDistortion.hpp:213-242; the Jacobian is not a number at the centre or if the distortion's Jacobian is
singular at the result. -/
noncomputable def eqUndistortJ (k : V4) (y : V2) : Option (V2 × M2) :=
  open Classical in
  match eqUndistort k y with
  | none => none
  | some u => if u = 0 ∨ (eqJ k u).det = 0 then none else some (u, (eqJ k u)⁻¹)

/-- impl/EquidistantDistortion.hpp:244-277. -/
noncomputable def eqParamJ (y : V2) : Matrix (Fin 2) (Fin 4) ℝ :=
  let r := √(y 0 * y 0 + y 1 * y 1)
  let t := arctan r
  !![y 0 * t ^ 3 * 1 / r, y 0 * t ^ 5 * 1 / r, y 0 * t ^ 7 * 1 / r, y 0 * t ^ 9 * 1 / r;
     y 1 * t ^ 3 * 1 / r, y 1 * t ^ 5 * 1 / r, y 1 * t ^ 7 * 1 / r, y 1 * t ^ 9 * 1 / r]

/-- impl/EquidistantDistortion.hpp as a distortion: both Jacobians divide zero by zero at the centre. -/
noncomputable def equidistant (k : V4) : Distortion 4 where
  distort := eqDistort k
  distortJ := fun y => open Classical in if y = 0 then none else some (eqJ k y)
  undistort := eqUndistort k
  undistortJ := eqUndistortJ k
  paramJ := fun y => open Classical in if y = 0 then none else some (eqParamJ y)

/-! Field-of-view distortion; the only parameter is w. -/

/-- y.norm(). -/
noncomputable def norm2 (y : V2) : ℝ := √(y 0 * y 0 + y 1 * y 1)

/-- impl/FovDistortion.hpp:34-52, 85: the factor y is multiplied with. -/
noncomputable def fovFactor (w : ℝ) (y : V2) : ℝ :=
  let ru := norm2 y
  let th := tan (w / 2)
  let at_ := arctan (2 * th * ru)
  if w * w < 1 / 10 ^ 5 then 1
  else if ru * ru < 1 / 10 ^ 5 then 2 * th / w
  else at_ / (ru * w)

/-- impl/FovDistortion.hpp:20-86, the point. -/
noncomputable def fovDistort (w : ℝ) (y : V2) : V2 := fovFactor w y • y

/-- impl/FovDistortion.hpp:54-83, the Jacobian. -/
noncomputable def fovJ (w : ℝ) (y : V2) : M2 :=
  let ru := norm2 y
  let ru3 := ru * ru * ru
  let th := tan (w / 2)
  let th2 := th * th
  let at_ := arctan (2 * th * ru)
  let u := y 0
  let v := y 1
  if w * w < 1 / 10 ^ 5 then 1
  else if ru * ru < 1 / 10 ^ 5 then (2 * th / w) • (1 : M2)
  else
    !![at_ / (w * ru) - (u * u * at_) / (w * ru3)
         + (2 * u * u * th) / (w * (u * u + v * v) * (4 * th2 * (u * u + v * v) + 1)),
       (2 * u * v * th) / (w * (u * u + v * v) * (4 * th2 * (u * u + v * v) + 1)) - (u * v * at_) / (w * ru3);
       (2 * u * v * th) / (w * (u * u + v * v) * (4 * th2 * (u * u + v * v) + 1)) - (u * v * at_) / (w * ru3),
       at_ / (w * ru) - (v * v * at_) / (w * ru3)
         + (2 * v * v * th) / (w * (u * u + v * v) * (4 * th2 * (u * u + v * v) + 1))]

/-- include/aslam_cameras/cameras/FovDistortion.hpp:146. -/
noncomputable def kMaxValidAngle : ℝ := 89 * π / 180

/-- impl/FovDistortion.hpp:89-116. -/
noncomputable def fovUndistort (w : ℝ) (y : V2) : V2 :=
  let m := tan (w / 2) * 2
  let rd := norm2 y
  open Classical in
  if m = 0 ∨ rd = 0 then y
  else if |rd * w| ≤ kMaxValidAngle then (tan (rd * w) / (rd * m)) • y
  else y

/-- impl/FovDistortion.hpp:131-170.  The branch for small radii sets both entries to the same number. -/
noncomputable def fovParamJ (w : ℝ) (y : V2) : Matrix (Fin 2) (Fin 1) ℝ :=
  let th := tan (w / 2)
  let th2 := th * th
  let ru := norm2 y
  let at_ := arctan (2 * th * ru)
  if w * w < 1 / 10 ^ 5 then 0
  else if ru * ru < 1 / 10 ^ 5 then
    ((w - sin w) / (w * w * cos (w / 2) * cos (w / 2))) • (Matrix.of fun _ _ => 1)
  else
    !![(2 * y 0 * (th2 / 2 + 1 / 2)) / (w * (4 * th2 * ru * ru + 1)) - (y 0 * at_) / (w * w * ru);
       (2 * y 1 * (th2 / 2 + 1 / 2)) / (w * (4 * th2 * ru * ru + 1)) - (y 1 * at_) / (w * w * ru)]

/-- impl/FovDistortion.hpp as a distortion; undistort with a Jacobian (118-129) always raises. -/
noncomputable def fov (w : ℝ) : Distortion 1 where
  distort := fovDistort w
  distortJ := fun y => some (fovJ w y)
  undistort := fun y => some (fovUndistort w y)
  undistortJ := fun _ => none
  paramJ := fun y => some (fovParamJ w y)

end Kalibr.Camera
