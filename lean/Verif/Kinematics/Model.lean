import Mathlib.LinearAlgebra.Matrix.Notation
import Mathlib.LinearAlgebra.Matrix.Determinant.Basic
import Mathlib.LinearAlgebra.CrossProduct
import Mathlib.Analysis.SpecialFunctions.Trigonometric.Inverse
import Mathlib.Analysis.SpecialFunctions.Sqrt

/-!
# Rotations, quaternions and rigid transformations

A model of `Schweizer-Messer/sm_kinematics/src/quaternion_algebra.cpp`, `rotations.cpp`,
`transformations.cpp`, `Transformation.cpp` and `RotationVector.cpp` over the real numbers: a `double` is a
real number, so rounding, overflow and NaN are not modelled.  Eigen's fixed size matrices and vectors are
Mathlib's `Matrix (Fin m) (Fin n) ℝ` and `Fin n → ℝ`, with the same indices.  A quaternion `q` has the
vector part `q 0, q 1, q 2` and the scalar part `q 3`.  The `_DBG` assertions are compiled out of release
builds and are not part of the model; what they demand is a hypothesis where it is needed.
-/

namespace Kalibr.Kin

open Matrix Real

/-- `Eigen::Vector3d` -/
abbrev V3 := Fin 3 → ℝ
/-- `Eigen::Vector4d` -/
abbrev V4 := Fin 4 → ℝ
/-- `Eigen::Matrix3d` -/
abbrev M3 := Matrix (Fin 3) (Fin 3) ℝ
/-- `Eigen::Matrix4d` -/
abbrev M4 := Matrix (Fin 4) (Fin 4) ℝ

/-- `v.norm()`, Eigen: square root of the sum of squares. -/
noncomputable def norm3 (v : V3) : ℝ := √(v 0 ^ 2 + v 1 ^ 2 + v 2 ^ 2)

/-- `q.norm()` for four components. -/
noncomputable def norm4 (q : V4) : ℝ := √(q 0 ^ 2 + q 1 ^ 2 + q 2 ^ 2 + q 3 ^ 2)

/-- `q.head<3>()`, `qeps` (quaternion_algebra.cpp:179-187). -/
def qeps (q : V4) : V3 := ![q 0, q 1, q 2]

/-- `crossMx` (rotations.cpp:76-84). -/
def crossMx (v : V3) : M3 :=
  !![0, -v 2, v 1;
     v 2, 0, -v 0;
     -v 1, v 0, 0]

/-! ## quaternion_algebra.cpp -/

/-- The four candidates `dc` of `r2quat` (quaternion_algebra.cpp:28-31). -/
def dc (R : M3) : V4 :=
  ![|1 + R 0 0 - R 1 1 - R 2 2|, |1 - R 0 0 + R 1 1 - R 2 2|, |1 - R 0 0 - R 1 1 + R 2 2|,
    |1 + R 0 0 + R 1 1 + R 2 2|]

open Classical in
/-- The loop that looks for the largest candidate (quaternion_algebra.cpp:33-41): the first of the largest
wins. -/
noncomputable def argmax (d : V4) : Fin 4 :=
  let m : Fin 4 := 0
  let m := if d m < d 1 then 1 else m
  let m := if d m < d 2 then 2 else m
  if d m < d 3 then 3 else m

/-- The quaternion before the sign is chosen, by the position of the largest candidate
(quaternion_algebra.cpp:43-68). -/
noncomputable def r2quatBranch (R : M3) (d : V4) : Fin 4 → V4
  | 0 => let q := 1 / 2 * √(d 0)
         let c := 1 / 4 / q
         ![q, c * (R 0 1 + R 1 0), c * (R 0 2 + R 2 0), c * (R 1 2 - R 2 1)]
  | 1 => let q := 1 / 2 * √(d 1)
         let c := 1 / 4 / q
         ![c * (R 0 1 + R 1 0), q, c * (R 2 1 + R 1 2), c * (R 2 0 - R 0 2)]
  | 2 => let q := 1 / 2 * √(d 2)
         let c := 1 / 4 / q
         ![c * (R 2 0 + R 0 2), c * (R 2 1 + R 1 2), q, c * (R 0 1 - R 1 0)]
  | 3 => let q := 1 / 2 * √(d 3)
         let c := 1 / 4 / q
         ![c * (R 1 2 - R 2 1), c * (R 2 0 - R 0 2), c * (R 0 1 - R 1 0), q]

open Classical in
/-- `r2quat` (quaternion_algebra.cpp:16-75). -/
noncomputable def r2quat (R : M3) : V4 :=
  let q := r2quatBranch R (dc R) (argmax (dc R))
  if q 3 < 0 then -q else q

/-- `quat2r` (quaternion_algebra.cpp:77-101). -/
def quat2r (q : V4) : M3 :=
  !![q 0 * q 0 - q 1 * q 1 - q 2 * q 2 + q 3 * q 3, q 0 * q 1 * 2 + q 2 * q 3 * 2, q 0 * q 2 * 2 - q 1 * q 3 * 2;
     q 0 * q 1 * 2 - q 2 * q 3 * 2, -q 0 * q 0 + q 1 * q 1 - q 2 * q 2 + q 3 * q 3, q 0 * q 3 * 2 + q 1 * q 2 * 2;
     q 0 * q 2 * 2 + q 1 * q 3 * 2, q 0 * q 3 * (-2) + q 1 * q 2 * 2, -q 0 * q 0 - q 1 * q 1 + q 2 * q 2 + q 3 * q 3]

/-- `quatPlus` (quaternion_algebra.cpp:104-117). -/
def quatPlus (q : V4) : M4 :=
  !![q 3, q 2, -q 1, q 0;
     -q 2, q 3, q 0, q 1;
     q 1, -q 0, q 3, q 2;
     -q 0, -q 1, -q 2, q 3]

/-- `quatOPlus` (quaternion_algebra.cpp:119-134). -/
def quatOPlus (q : V4) : M4 :=
  !![q 3, -q 2, q 1, q 0;
     q 2, q 3, -q 0, q 1;
     -q 1, q 0, q 3, q 2;
     -q 0, -q 1, -q 2, q 3]

/-- `qplus` (quaternion_algebra.cpp:136-149). -/
def qplus (q p : V4) : V4 :=
  ![p 0 * q 3 + p 1 * q 2 - p 2 * q 1 + p 3 * q 0,
    p 2 * q 0 - p 0 * q 2 + p 1 * q 3 + p 3 * q 1,
    p 0 * q 1 - p 1 * q 0 + p 2 * q 3 + p 3 * q 2,
    p 3 * q 3 - p 1 * q 1 - p 2 * q 2 - p 0 * q 0]

/-- `qoplus` (quaternion_algebra.cpp:151-164). -/
def qoplus (q p : V4) : V4 :=
  ![p 0 * q 3 - p 1 * q 2 + p 2 * q 1 + p 3 * q 0,
    p 0 * q 2 - p 2 * q 0 + p 1 * q 3 + p 3 * q 1,
    p 1 * q 0 - p 0 * q 1 + p 2 * q 3 + p 3 * q 2,
    p 3 * q 3 - p 1 * q 1 - p 2 * q 2 - p 0 * q 0]

/-- `quatInv`, `invertQuat` (quaternion_algebra.cpp:166-176). -/
def quatInv (q : V4) : V4 := ![-q 0, -q 1, -q 2, q 3]

/-- `quatIdentity` (quaternion_algebra.cpp:334-337). -/
def quatIdentity : V4 := ![0, 0, 0, 1]

/-- `quatRotate` (quaternion_algebra.cpp:320-323). -/
def quatRotate (q : V4) (v : V3) : V3 :=
  v + (2 : ℝ) • (crossProduct (qeps q) (crossProduct (qeps q) v - q 3 • v))

/-- The threshold of `isLessThenEpsilons4thRoot` (quaternion_algebra.cpp:9-13): the fourth root of
`2^-52`. -/
noncomputable def eps4 : ℝ := 1 / 8192

open Classical in
/-- `axisAngle2quat` (quaternion_algebra.cpp:200-221). -/
noncomputable def axisAngle2quat (a : V3) : V4 :=
  let θ := norm3 a
  let na := if θ < eps4 then 1 / 2 + θ * θ * (1 / 48) else sin (θ * (1 / 2)) / θ
  ![a 0 * na, a 1 * na, a 2 * na, cos (θ * (1 / 2))]

open Classical in
/-- `arcSinXOverX` (quaternion_algebra.cpp:228-234); `Scalar_(1/6)` is the integer quotient 0. -/
noncomputable def arcSinXOverX (x : ℝ) : ℝ :=
  if |x| < eps4 then 1 + x * x * ((1 / 6 : ℕ) : ℝ) else arcsin x / x

open Classical in
/-- `quat2AxisAngle` (quaternion_algebra.cpp:236-274). -/
noncomputable def quat2AxisAngle (q : V4) : V3 :=
  let a := qeps q
  let na := norm3 a
  let eta := q 3
  let scale :=
    if |eta| < na then arccos eta / na
    else if 0 < eta then arcSinXOverX na
    else (π - arcsin na) / na
  (2 * scale) • a

/-- `updateQuat` (quaternion_algebra.cpp:302-318). -/
noncomputable def updateQuat (q : V4) (dq : V3) : V4 :=
  let d := axisAngle2quat dq
  let ca := d 3
  ![q 0 * ca + d 0 * q 3 - d 1 * q 2 + d 2 * q 1,
    q 1 * ca + d 0 * q 2 + d 1 * q 3 - d 2 * q 0,
    q 2 * ca - d 0 * q 1 + d 1 * q 0 + d 2 * q 3,
    q 3 * ca - d 0 * q 0 - d 1 * q 1 - d 2 * q 2]

/-- `quatS` (quaternion_algebra.cpp:339-353). -/
def quatS (q : V4) : Matrix (Fin 3) (Fin 4) ℝ :=
  !![q 3 * 2, q 2 * 2, -(q 1 * 2), -(q 0 * 2);
     -(q 2 * 2), q 3 * 2, q 0 * 2, -(q 1 * 2);
     q 1 * 2, -(q 0 * 2), q 3 * 2, -(q 2 * 2)]

/-- `quatInvS` (quaternion_algebra.cpp:355-372). -/
noncomputable def quatInvS (q : V4) : Matrix (Fin 4) (Fin 3) ℝ :=
  !![q 3 * (1 / 2), -(q 2 * (1 / 2)), q 1 * (1 / 2);
     q 2 * (1 / 2), q 3 * (1 / 2), -(q 0 * (1 / 2));
     -(q 1 * (1 / 2)), q 0 * (1 / 2), q 3 * (1 / 2);
     -(q 0 * (1 / 2)), -(q 1 * (1 / 2)), -(q 2 * (1 / 2))]

open Classical in
/-- `lerp` (quaternion_algebra.cpp:399-414) for three components. -/
noncomputable def lerp (p0 p1 : V3) (t : ℝ) : V3 :=
  if t ≤ 0 then p0 else if 1 ≤ t then p1 else (1 - t) • p0 + t • p1

open Classical in
/-- `qslerp` (quaternion_algebra.cpp:374-395); `qexp` and `qlog` are `axisAngle2quat` and
`quat2AxisAngle` (quaternion_algebra.hpp). -/
noncomputable def qslerp (q0 q1 : V4) (t : ℝ) : V4 :=
  if t ≤ 0 then q0
  else if 1 ≤ t then q1
  else if norm4 (q0 + q1) ^ 2 < norm4 (q0 - q1) ^ 2 then
    qplus q0 (axisAngle2quat (t • quat2AxisAngle (qplus (quatInv q0) (-q1))))
  else qplus q0 (axisAngle2quat (t • quat2AxisAngle (qplus (quatInv q0) q1)))

/-! ## rotations.cpp -/

/-- `Rx` (rotations.cpp:9-18). -/
noncomputable def Rx (r : ℝ) : M3 := !![1, 0, 0; 0, cos r, -sin r; 0, sin r, cos r]
/-- `Ry` (rotations.cpp:20-29). -/
noncomputable def Ry (r : ℝ) : M3 := !![cos r, 0, sin r; 0, 1, 0; -sin r, 0, cos r]
/-- `Rz` (rotations.cpp:30-39). -/
noncomputable def Rz (r : ℝ) : M3 := !![cos r, -sin r, 0; sin r, cos r, 0; 0, 0, 1]

/-- `rph2R` (rotations.cpp:41-57). -/
noncomputable def rph2R (x y z : ℝ) : M3 :=
  !![cos z * cos y, -sin z * cos x + cos z * sin y * sin x, sin z * sin x + cos z * sin y * cos x;
     sin z * cos y, cos z * cos x + sin z * sin y * sin x, -cos z * sin x + sin z * sin y * cos x;
     -sin y, cos y * sin x, cos y * cos x]

/-- The body of `axisAngle2R` (rotations.cpp:106-117). -/
noncomputable def axisAngleMx (a : ℝ) (e : V3) : M3 :=
  let sa := sin a
  let ca := cos a
  !![e 0 * e 0 + ca * (1 - e 0 * e 0), e 0 * e 1 - ca * e 0 * e 1 + sa * e 2, e 0 * e 2 - ca * e 0 * e 2 - sa * e 1;
     e 0 * e 1 - ca * e 0 * e 1 - sa * e 2, e 1 * e 1 + ca * (1 - e 1 * e 1), e 1 * e 2 - ca * e 1 * e 2 + sa * e 0;
     e 0 * e 2 - ca * e 0 * e 2 + sa * e 1, e 1 * e 2 - ca * e 1 * e 2 - sa * e 0, e 2 * e 2 + ca * (1 - e 2 * e 2)]

open Classical in
/-- `axisAngle2R(a, ax, ay, az)` (rotations.cpp:95-119). -/
noncomputable def axisAngle2R (a : ℝ) (e : V3) : M3 :=
  if a < 1 / 10 ^ 12 then 1 else axisAngleMx a e

open Classical in
/-- `axisAngle2R(x, y, z)` (rotations.cpp:120-127). -/
noncomputable def rotVec2R (x : V3) : M3 :=
  let a := norm3 x
  if a < 1 / 10 ^ 12 then 1
  else
    let d := 1 / a
    axisAngle2R a ![x 0 * d, x 1 * d, x 2 * d]

open Classical in
/-- The common body of `R2AxisAngle` (rotations.cpp:133-157, threshold `1e-10`) and of
`RotationVector::rotationMatrixToParameters` (RotationVector.cpp:57-80, threshold `1e-14`). -/
noncomputable def mx2AxisAngle (thr : ℝ) (C : M3) : V3 :=
  let tr := max (-1) (min ((C 0 0 + C 1 1 + C 2 2 - 1) * (1 / 2)) 1)
  let a := arccos tr
  if |a| < thr then 0
  else
    let axis : V3 := ![C 2 1 - C 1 2, C 0 2 - C 2 0, C 1 0 - C 0 1]
    let n2 := norm3 axis
    if |n2| < thr then 0
    else
      let scale := -a / n2
      scale • axis

/-- `R2AxisAngle` (rotations.cpp:133-157). -/
noncomputable def R2AxisAngle : M3 → V3 := mx2AxisAngle (1 / 10 ^ 10)

/-! ## RotationVector.cpp -/

open Classical in
/-- `RotationVector::parametersToRotationMatrix` (RotationVector.cpp:10-55). -/
noncomputable def rvToR (p : V3) : M3 :=
  let angle := norm3 p
  if angle < 1 / 10 ^ 14 then 1
  else axisAngleMx angle ((1 / angle) • p)

/-- `RotationVector::rotationMatrixToParameters` (RotationVector.cpp:57-80). -/
noncomputable def rvOfR : M3 → V3 := mx2AxisAngle (1 / 10 ^ 14)

open Classical in
/-- `RotationVector::parametersToSMatrix` (RotationVector.cpp:82-106). -/
noncomputable def rvS (p : V3) : M3 :=
  let angle := norm3 p
  if angle < 1 / 10 ^ 14 then 1
  else
    let recip := 1 / angle
    let A := crossMx (recip • p)
    let c1 := -2 * sin (angle * (1 / 2)) * sin (angle * (1 / 2)) * recip
    let c2 := (angle - sin angle) * recip
    1 + c1 • A + c2 • (A * A)

open Classical in
/-- `RotationVector::parametersToInverseSMatrix` (RotationVector.cpp:186-201). -/
noncomputable def rvInvS (p : V3) : M3 :=
  let phi := √(p 0 * p 0 + p 1 * p 1 + p 2 * p 2)
  if phi = 0 then 1
  else
    let cot := -sin phi / (cos phi - 1)
    let a1 := 1 / (phi * phi) * (1 - 1 / 2 * phi * cot)
    1 + (1 / 2 : ℝ) • crossMx p + a1 • (crossMx p * crossMx p)

/-! ## transformations.cpp -/

/-- `rt2Transform` (transformations.cpp:6-17); `Transformation::T` builds the same matrix
(Transformation.cpp:63-72). -/
def rt2Transform (C : M3) (t : V3) : M4 :=
  !![C 0 0, C 0 1, C 0 2, t 0;
     C 1 0, C 1 1, C 1 2, t 1;
     C 2 0, C 2 1, C 2 2, t 2;
     0, 0, 0, 1]

/-- `transform2C` (transformations.cpp:19-22). -/
def transform2C (T : M4) : M3 :=
  !![T 0 0, T 0 1, T 0 2; T 1 0, T 1 1, T 1 2; T 2 0, T 2 1, T 2 2]

/-- `transform2rho` (transformations.cpp:24-27). -/
def transform2rho (T : M4) : V3 := ![T 0 3, T 1 3, T 2 3]

/-- `inverseTransform` (transformations.cpp:55-66). -/
def inverseTransform (T : M4) : M4 :=
  let C := (transform2C T)ᵀ
  rt2Transform C ((-C).mulVec (transform2rho T))

/-! ## Transformation.cpp -/

/-- The two members of `Transformation`. -/
structure Trafo where
  q : V4
  t : V3

/-- `_q_a_b.normalize()` (Eigen). -/
noncomputable def normalize (q : V4) : V4 := (norm4 q)⁻¹ • q

/-- `Transformation(q, t)` (Transformation.cpp:31-35). -/
noncomputable def Trafo.mk' (q : V4) (t : V3) : Trafo := ⟨normalize q, t⟩

/-- `Transformation()` (Transformation.cpp:17-21). -/
def Trafo.one : Trafo := ⟨quatIdentity, ![0, 0, 0]⟩

/-- `Transformation(T)`, `set(T)` (Transformation.cpp:24-29, 57-61). -/
noncomputable def Trafo.ofMatrix (T : M4) : Trafo := ⟨r2quat (transform2C T), transform2rho T⟩

/-- `Transformation::C` (Transformation.cpp:40-43). -/
def Trafo.C (T : Trafo) : M3 := quat2r T.q

/-- `Transformation::T` (Transformation.cpp:63-72). -/
def Trafo.T (T : Trafo) : M4 := rt2Transform (quat2r T.q) T.t

/-- `Transformation::inverse` (Transformation.cpp:83-87). -/
noncomputable def Trafo.inverse (T : Trafo) : Trafo :=
  Trafo.mk' (quatInv T.q) (quatRotate (quatInv T.q) (-T.t))

/-- `Transformation::operator*(Transformation)` (Transformation.cpp:95-98). -/
noncomputable def Trafo.mul (A B : Trafo) : Trafo :=
  Trafo.mk' (qplus A.q B.q) (quatRotate A.q B.t + A.t)

/-- `Transformation::operator*(Vector3d)` (Transformation.cpp:100-103). -/
def Trafo.apply (A : Trafo) (p : V3) : V3 := quatRotate A.q p + A.t

/-- `Transformation::operator*(Vector4d)` (Transformation.cpp:105-113), also for `HomogeneousPoint`
(Transformation.cpp:116-122). -/
def Trafo.applyH (A : Trafo) (p : V4) : V4 :=
  let v := quatRotate A.q ![p 0, p 1, p 2] + p 3 • A.t
  ![v 0, v 1, v 2, p 3]

/-- `Transformation::oplus` (Transformation.cpp:137-141). -/
noncomputable def Trafo.oplus (A : Trafo) (dt : Fin 6 → ℝ) : Trafo :=
  ⟨updateQuat A.q ![dt 3, dt 4, dt 5], A.t + ![dt 0, dt 1, dt 2]⟩

/-- `slerpTransformations` (Transformation.cpp:251-257). -/
noncomputable def slerpTransformations (A B : Trafo) (s : ℝ) : Trafo :=
  Trafo.mk' (qslerp A.q B.q s) (lerp A.t B.t s)

open Classical in
/-- `interpolateTransformations` (Transformation.cpp:233-248); the recursive call swaps the arguments, so
that it does not recur again. -/
noncomputable def interpolateTransformations (T0 : Trafo) (s0 : ℝ) (T1 : Trafo) (s1 si : ℝ) : Trafo :=
  if s1 < s0 then slerpTransformations T1 T0 ((si - s1) / max (1 / 10 ^ 14) (s0 - s1))
  else slerpTransformations T0 T1 ((si - s0) / max (1 / 10 ^ 14) (s1 - s0))

end Kalibr.Kin
