import Verif.Kinematics.Model
import Mathlib.Analysis.SpecialFunctions.Complex.Arg
import Mathlib.Analysis.SpecialFunctions.Pow.Real

/-!
# Euler angles and Rodrigues parameters

A model of `EulerAnglesZYX.cpp`, `EulerAnglesYawPitchRoll.cpp`, `EulerAnglesZXY.cpp`, `EulerRodriguez.cpp` and of
the Euler angle functions of `rotations.cpp` in `Schweizer-Messer/sm_kinematics/src`, over the real numbers.
-/

namespace Kalibr.Kin

open Matrix Real

/-- `atan2(y, x)`; signed zeros are not modelled. -/
noncomputable def atan2 (y x : ℝ) : ℝ := Complex.arg ⟨x, y⟩

/-- A 3 by 6 Jacobian, stored as the two 3 by 3 blocks for the parameters and for their rates. -/
structure Jac36 where
  dp : M3
  dr : M3

/-! ## rotations.cpp -/

/-- `R2rph` (rotations.cpp:62-73). -/
noncomputable def R2rph (C : M3) : V3 :=
  let phi := arcsin (C 2 0)
  let theta := atan2 (C 2 1) (C 2 2)
  let psi := atan2 (C 1 0) (C 0 0)
  ![theta, -phi, psi]

/-- `rph2C` (rotations.cpp:184-187). -/
noncomputable def rph2C (x y z : ℝ) : M3 := rph2R (-x) (-y) (-z)

/-- `C2rph` (rotations.cpp:218-229). -/
noncomputable def C2rph (C : M3) : V3 :=
  ![atan2 (-C 2 1) (C 2 2), arcsin (C 2 0), atan2 (-C 1 0) (C 0 0)]

/-! ## EulerAnglesZYX.cpp -/

/-- `EulerAnglesZYX::parametersToRotationMatrix` (EulerAnglesZYX.cpp:13-36). -/
noncomputable def zyxToR (p : V3) : M3 :=
  let cx := cos (-p 2); let sx := sin (-p 2)
  let cy := cos (-p 1); let sy := sin (-p 1)
  let cz := cos (-p 0); let sz := sin (-p 0)
  !![cz * cy, -sz * cx + cz * sy * sx, sz * sx + cz * sy * cx;
     sz * cy, cz * cx + sz * sy * sx, -cz * sx + sz * sy * cx;
     -sy, cy * sx, cy * cx]

/-- `EulerAnglesZYX::rotationMatrixToParameters` (EulerAnglesZYX.cpp:38-50). -/
noncomputable def zyxOfR (R : M3) : V3 :=
  let phi := arcsin (R 2 0)
  let theta := atan2 (R 2 1) (R 2 2)
  let psi := atan2 (R 1 0) (R 0 0)
  ![-psi, phi, -theta]

/-- `EulerAnglesZYX::buildSMatrix` (EulerAnglesZYX.cpp:61-70). -/
def zyxBuildS (sz cz sy cy : ℝ) : M3 :=
  !![0, -sz, cy * cz;
     0, cz, cy * sz;
     1, 0, -sy]

/-- `EulerAnglesZYX::parametersToSMatrix` (EulerAnglesZYX.cpp:52-59). -/
noncomputable def zyxS (p : V3) : M3 := zyxBuildS (sin (-p 0)) (cos (-p 0)) (sin (-p 1)) (cos (-p 1))

/-- The angular velocity of `EulerAnglesZYX::angularVelocityAndJacobian` (EulerAnglesZYX.cpp:72-83). -/
noncomputable def zyxOmega (p r : V3) : V3 := (zyxS p).mulVec r

/-- Its Jacobian (EulerAnglesZYX.cpp:85-94). -/
noncomputable def zyxJac (p r : V3) : Jac36 :=
  let cy := cos (-p 1); let sy := sin (-p 1)
  let cz := cos (-p 0); let sz := sin (-p 0)
  ⟨!![cz * r 1 + cy * sz * r 2, cz * sy * r 2, 0;
      sz * r 1 - cz * cy * r 2, sz * sy * r 2, 0;
      0, cy * r 2, 0], zyxS p⟩

/-! ## EulerAnglesYawPitchRoll.cpp -/

/-- `EulerAnglesYawPitchRoll::parametersToRotationMatrix` (EulerAnglesYawPitchRoll.cpp:14-37). -/
noncomputable def yprToR (p : V3) : M3 :=
  let cx := cos (p 2); let sx := sin (p 2)
  let cy := cos (p 1); let sy := sin (p 1)
  let cz := cos (p 0); let sz := sin (p 0)
  !![cz * cy, -sz * cx + cz * sy * sx, sz * sx + cz * sy * cx;
     sz * cy, cz * cx + sz * sy * sx, -cz * sx + sz * sy * cx;
     -sy, cy * sx, cy * cx]

/-- `EulerAnglesYawPitchRoll::rotationMatrixToParameters` (EulerAnglesYawPitchRoll.cpp:39-51). -/
noncomputable def yprOfR (R : M3) : V3 :=
  let phi := arcsin (-R 2 0)
  let theta := atan2 (R 2 1) (R 2 2)
  let psi := atan2 (R 1 0) (R 0 0)
  ![psi, phi, theta]

/-- `EulerAnglesYawPitchRoll::buildSMatrix` (EulerAnglesYawPitchRoll.cpp:62-71). -/
def yprBuildS (sz cz sy cy : ℝ) : M3 :=
  !![0, sz, -cy * cz;
     0, -cz, -cy * sz;
     -1, 0, sy]

/-- `EulerAnglesYawPitchRoll::parametersToSMatrix` (EulerAnglesYawPitchRoll.cpp:53-60). -/
noncomputable def yprS (p : V3) : M3 := yprBuildS (sin (p 0)) (cos (p 0)) (sin (p 1)) (cos (p 1))

/-- The angular velocity of `EulerAnglesYawPitchRoll::angularVelocityAndJacobian`
(EulerAnglesYawPitchRoll.cpp:73-84). -/
noncomputable def yprOmega (p r : V3) : V3 := (yprS p).mulVec r

/-- Its Jacobian (EulerAnglesYawPitchRoll.cpp:86-95). -/
noncomputable def yprJac (p r : V3) : Jac36 :=
  let cy := cos (p 1); let sy := sin (p 1)
  let cz := cos (p 0); let sz := sin (p 0)
  ⟨!![cz * r 1 + cy * sz * r 2, cz * sy * r 2, 0;
      sz * r 1 - cz * cy * r 2, sz * sy * r 2, 0;
      0, cy * r 2, 0], yprS p⟩

/-! ## EulerAnglesZXY.cpp -/

/-- `EulerAnglesZXY::parametersToRotationMatrix` (EulerAnglesZXY.cpp:50-64). -/
noncomputable def zxyToR (p : V3) : M3 :=
  let cx := cos (p 1); let sx := sin (p 1)
  let cy := cos (p 2); let sy := sin (p 2)
  let cz := cos (p 0); let sz := sin (p 0)
  !![cz * cy - sz * sx * sy, -sz * cx, cz * sy + sz * sx * cy;
     sz * cy + cz * sx * sy, cz * cx, sz * sy - cz * sx * cy;
     -cx * sy, sx, cx * cy]

/-- `EulerAnglesZXY::rotationMatrixToParameters` (EulerAnglesZXY.cpp:66-73). -/
noncomputable def zxyOfR (R : M3) : V3 :=
  ![atan2 (-R 0 1) (R 1 1), arcsin (R 2 1), atan2 (-R 2 0) (R 2 2)]

/-- `EulerAnglesZXY::parametersToSMatrix` (EulerAnglesZXY.cpp:75-85). -/
noncomputable def zxyS (p : V3) : M3 :=
  let cx := cos (p 1); let sx := sin (p 1)
  let cz := cos (p 0); let sz := sin (p 0)
  !![0, -cz, cx * sz;
     0, -sz, -cx * cz;
     -1, 0, -sx]

/-- The angular velocity of `EulerAnglesZXY::angularVelocityAndJacobian` (EulerAnglesZXY.cpp:87-104). -/
noncomputable def zxyOmega (p r : V3) : V3 := (zxyS p).mulVec r

/-- Its Jacobian (EulerAnglesZXY.cpp:95-102). -/
noncomputable def zxyJac (p r : V3) : Jac36 :=
  let cx := cos (p 1); let sx := sin (p 1)
  let cz := cos (p 0); let sz := sin (p 0)
  ⟨!![sz * r 1 + cx * cz * r 2, -sx * sz * r 2, 0;
      -cz * r 1 + cx * sz * r 2, sx * cz * r 2, 0;
      0, -cx * r 2, 0], zxyS p⟩

/-! ## EulerRodriguez.cpp -/

/-- `parameters.squaredNorm()`. -/
def sqNorm3 (p : V3) : ℝ := p 0 ^ 2 + p 1 ^ 2 + p 2 ^ 2

/-- `EulerRodriguez::parametersToRotationMatrix` (EulerRodriguez.cpp:11-25). -/
noncomputable def erToR (p : V3) : M3 :=
  let crossp := crossMx p
  1 + (2 / (1 + sqNorm3 p)) • (crossp * crossp - crossp)

open Classical in
/-- `EulerRodriguez::rotationMatrixToParameters` (EulerRodriguez.cpp:27-52). -/
noncomputable def erOfR (C : M3) : V3 :=
  let a := arccos ((C 0 0 + C 1 1 + C 2 2 - 1) * (1 / 2))
  if |a| < 1 / 10 ^ 14 then 0
  else
    let p : V3 := ![C 2 1 - C 1 2, C 0 2 - C 2 0, C 1 0 - C 0 1]
    let n2 := norm3 p
    if n2 < 1 / 10 ^ 14 then 0
    else
      let scale := -tan (1 / 2 * a) / n2
      scale • p

/-- `EulerRodriguez::parametersToSMatrix` (EulerRodriguez.cpp:54-61). -/
noncomputable def erS (p : V3) : M3 := (2 / (1 + sqNorm3 p)) • (1 - crossMx p)

/-- The angular velocity of `EulerRodriguez::angularVelocityAndJacobian` (EulerRodriguez.cpp:63-71). -/
noncomputable def erOmega (p r : V3) : V3 :=
  let recip := 1 / (1 + sqNorm3 p)
  let f := 2 * recip
  (f • (1 - crossMx p)).mulVec r

/-- Its Jacobian (EulerRodriguez.cpp:75-81). -/
noncomputable def erJac (p r : V3) : Jac36 :=
  let crossp := crossMx p
  let recip := 1 / (1 + sqNorm3 p)
  let f := 2 * recip
  let a : V3 := (-4 * recip * recip) • p
  ⟨Matrix.vecMulVec r a - Matrix.vecMulVec (crossp.mulVec r) a + f • crossMx r, f • (1 - crossp)⟩

/-! ## The Jacobian of the angular velocity of a rotation vector (RotationVector.cpp:109-183) -/

/-- The angular velocity of `RotationVector::angularVelocityAndJacobian` (RotationVector.cpp:109-114). -/
noncomputable def rvOmega (p r : V3) : V3 := (rvS p).mulVec r

/-- Its Jacobian (RotationVector.cpp:117-178), with the intermediate variables of the code; `pow(x, 3.0/2.0)` is the
real power. -/
noncomputable def rvJac (p r : V3) : Jac36 :=
  let t1 := p 0
  let t2 := p 1
  let t3 := p 2
  let dt1 := r 0
  let dt2 := r 1
  let dt3 := r 2
  let t5 := t1 * t1
  let t6 := t2 * t2
  let t7 := t3 * t3
  let t8 := t5 + t6 + t7
  let t9 := (t8 ^ (3 / 2 : ℝ))
  let t10 := √t8
  let t11 := sin t10
  let t12 := cos t10
  let t13 := t12 * (1 / 2)
  let t14 := t13 - 1 / 2
  let t15 := 1 / (t8 ^ (5 / 2 : ℝ))
  let t16 := dt3 * t14 * t9 * 2
  let t17 := dt3 * t1 * t11 * t2 * t3 * 3
  let t18 := dt3 * t3 * t9
  let t19 := dt1 * t1 * t10 * t6 * 2
  let t20 := dt2 * t11 * t2 * t5 * 3
  let t21 := dt1 * t1 * t10 * t12 * t6
  let t22 := dt2 * t14 * t9 * 2
  let t23 := dt2 * t1 * t10 * t2 * t3 * 2
  let t24 := dt2 * t1 * t10 * t12 * t2 * t3
  let t25 := dt1 * t14 * t9 * 2
  let t26 := dt1 * t1 * t11 * t2 * t3 * 3
  let t27 := dt1 * t1 * t9
  let t28 := dt2 * t2 * t9
  let t29 := dt1 * t1 * t10 * t7 * 2
  let t30 := dt2 * t10 * t2 * t7 * 2
  let t31 := dt3 * t11 * t3 * t5 * 3
  let t32 := dt3 * t11 * t3 * t6 * 3
  let t33 := dt2 * t1 * t11 * t3 * t8
  let t34 := dt2 * t1 * t10 * t14 * t3 * 4
  let t35 := dt1 * t1 * t10 * t12 * t7
  let t36 := dt2 * t10 * t12 * t2 * t7
  let t0 := t15 * (t18 + t19 + t20 + t21 + t28 + t29 + t31 + t33 + t34 + t35 - dt1 * t1 * t11 * t6 * 3 -
    dt2 * t10 * t2 * t5 * 2 - dt1 * t1 * t11 * t7 * 3 - dt3 * t10 * t3 * t5 * 2 - dt2 * t11 * t2 * t8 - dt3
    * t11 * t3 * t8 - dt3 * t1 * t10 * t14 * t2 * 4 - dt2 * t10 * t12 * t2 * t5 - dt3 * t10 * t12 * t3 * t5
    - dt3 * t1 * t11 * t2 * t8)
  ⟨!![t0,
      t15 * (t16 + t17 + dt2 * t1 * t9 - dt1 * t2 * t9 * 2 - dt2 * t1 * t10 * t6 * 2 + dt2 * t1 * t11 * t6 * 3
        - dt3 * t10 * t14 * t6 * 4 + dt1 * t10 * t2 * t6 * 2 - dt1 * t11 * t2 * t6 * 3 + dt1 * t10 * t2 * t7 * 2
        - dt1 * t11 * t2 * t7 * 3 - dt2 * t1 * t11 * t8 + dt1 * t11 * t2 * t8 * 2 - dt3 * t11 * t6 * t8 - dt3 *
        t1 * t10 * t2 * t3 * 2 + dt2 * t10 * t14 * t2 * t3 * 4 - dt2 * t1 * t10 * t12 * t6 + dt1 * t10 * t12 *
        t2 * t6 + dt1 * t10 * t12 * t2 * t7 + dt2 * t11 * t2 * t3 * t8 - dt3 * t1 * t10 * t12 * t2 * t3),
      -t15 * (t22 + t23 + t24 - dt3 * t1 * t9 + dt1 * t3 * t9 * 2 + dt3 * t1 * t10 * t7 * 2 - dt3 * t1 * t11 *
        t7 * 3 - dt2 * t10 * t14 * t7 * 4 - dt1 * t10 * t3 * t6 * 2 + dt1 * t11 * t3 * t6 * 3 + dt3 * t1 * t11 *
        t8 - dt1 * t10 * t3 * t7 * 2 + dt1 * t11 * t3 * t7 * 3 - dt1 * t11 * t3 * t8 * 2 - dt2 * t11 * t7 * t8 -
        dt2 * t1 * t11 * t2 * t3 * 3 + dt3 * t10 * t14 * t2 * t3 * 4 + dt3 * t1 * t10 * t12 * t7 - dt1 * t10 *
        t12 * t3 * t6 - dt1 * t10 * t12 * t3 * t7 + dt3 * t11 * t2 * t3 * t8);
      -t15 * (t16 - t17 + dt2 * t1 * t9 * 2 - dt1 * t2 * t9 - dt2 * t1 * t10 * t5 * 2 + dt2 * t1 * t11 * t5 *
        3 - dt3 * t10 * t14 * t5 * 4 + dt1 * t10 * t2 * t5 * 2 - dt1 * t11 * t2 * t5 * 3 - dt2 * t1 * t10 * t7 *
        2 + dt2 * t1 * t11 * t7 * 3 - dt2 * t1 * t11 * t8 * 2 + dt1 * t11 * t2 * t8 - dt3 * t11 * t5 * t8 + dt1
        * t1 * t10 * t14 * t3 * 4 + dt3 * t1 * t10 * t2 * t3 * 2 - dt2 * t1 * t10 * t12 * t5 + dt1 * t10 * t12 *
        t2 * t5 - dt2 * t1 * t10 * t12 * t7 + dt1 * t1 * t11 * t3 * t8 + dt3 * t1 * t10 * t12 * t2 * t3),
      t15 * (t18 - t19 - t20 - t21 + t27 + t30 + t32 + t36 + dt1 * t1 * t11 * t6 * 3 + dt2 * t10 * t2 * t5 * 2
        - dt1 * t1 * t11 * t8 - dt2 * t11 * t2 * t7 * 3 - dt3 * t10 * t3 * t6 * 2 - dt3 * t11 * t3 * t8 + dt3 *
        t1 * t10 * t14 * t2 * 4 - dt1 * t10 * t14 * t2 * t3 * 4 + dt2 * t10 * t12 * t2 * t5 - dt3 * t10 * t12 *
        t3 * t6 + dt3 * t1 * t11 * t2 * t8 - dt1 * t11 * t2 * t3 * t8),
      t15 * (t25 + t26 + dt3 * t2 * t9 - dt2 * t3 * t9 * 2 + dt2 * t10 * t3 * t5 * 2 - dt2 * t11 * t3 * t5 * 3
        - dt1 * t10 * t14 * t7 * 4 - dt3 * t10 * t2 * t7 * 2 + dt3 * t11 * t2 * t7 * 3 + dt2 * t10 * t3 * t7 * 2
        - dt2 * t11 * t3 * t7 * 3 - dt3 * t11 * t2 * t8 + dt2 * t11 * t3 * t8 * 2 - dt1 * t11 * t7 * t8 + dt3 *
        t1 * t10 * t14 * t3 * 4 - dt1 * t1 * t10 * t2 * t3 * 2 + dt2 * t10 * t12 * t3 * t5 - dt3 * t10 * t12 *
        t2 * t7 + dt2 * t10 * t12 * t3 * t7 + dt3 * t1 * t11 * t3 * t8 - dt1 * t1 * t10 * t12 * t2 * t3);
      t15 * (t22 - t23 - t24 - dt3 * t1 * t9 * 2 + dt1 * t3 * t9 + dt3 * t1 * t10 * t5 * 2 - dt3 * t1 * t11 *
        t5 * 3 - dt2 * t10 * t14 * t5 * 4 + dt3 * t1 * t10 * t6 * 2 - dt3 * t1 * t11 * t6 * 3 - dt1 * t10 * t3 *
        t5 * 2 + dt1 * t11 * t3 * t5 * 3 + dt3 * t1 * t11 * t8 * 2 - dt1 * t11 * t3 * t8 - dt2 * t11 * t5 * t8 +
        dt1 * t1 * t10 * t14 * t2 * 4 + dt2 * t1 * t11 * t2 * t3 * 3 + dt3 * t1 * t10 * t12 * t5 + dt3 * t1 *
        t10 * t12 * t6 - dt1 * t10 * t12 * t3 * t5 + dt1 * t1 * t11 * t2 * t8),
      -t15 * (t25 - t26 + dt3 * t2 * t9 * 2 - dt2 * t3 * t9 - dt3 * t10 * t2 * t5 * 2 + dt3 * t11 * t2 * t5 *
        3 - dt1 * t10 * t14 * t6 * 4 - dt3 * t10 * t2 * t6 * 2 + dt3 * t11 * t2 * t6 * 3 + dt2 * t10 * t3 * t6 *
        2 - dt2 * t11 * t3 * t6 * 3 - dt3 * t11 * t2 * t8 * 2 + dt2 * t11 * t3 * t8 - dt1 * t11 * t6 * t8 + dt2
        * t1 * t10 * t14 * t2 * 4 + dt1 * t1 * t10 * t2 * t3 * 2 - dt3 * t10 * t12 * t2 * t5 - dt3 * t10 * t12 *
        t2 * t6 + dt2 * t10 * t12 * t3 * t6 + dt2 * t1 * t11 * t2 * t8 + dt1 * t1 * t10 * t12 * t2 * t3),
      t15 * (t27 + t28 - t29 - t30 - t31 - t32 - t33 - t34 - t35 - t36 + dt1 * t1 * t11 * t7 * 3 + dt3 * t10 *
        t3 * t5 * 2 - dt1 * t1 * t11 * t8 + dt2 * t11 * t2 * t7 * 3 + dt3 * t10 * t3 * t6 * 2 - dt2 * t11 * t2 *
        t8 + dt1 * t10 * t14 * t2 * t3 * 4 + dt3 * t10 * t12 * t3 * t5 + dt3 * t10 * t12 * t3 * t6 + dt1 * t11 *
        t2 * t3 * t8)], rvS p⟩

end Kalibr.Kin
