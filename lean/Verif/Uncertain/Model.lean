import Verif.Expr.Vel
import Verif.Common

/-!
# Uncertain transformations, homogeneous points and vectors

Models `sm_kinematics`: `UncertainTransformation`, `UncertainHomogeneousPoint`, `HomogeneousPoint`,
`UncertainVector` and the helpers of `homogeneous_coordinates`.  Numbers are exact reals.  Random and serialised
objects and `isBinaryEqual` are not modelled; the assertions that exist only in debug builds are left out.
-/

namespace Kalibr.Unc

open Kalibr.Kin Kalibr.Exp Matrix

/-! ## homogeneous_coordinates -/

/-- `toHomogeneousPlus` (src/homogeneous_coordinates.cpp:71-82). -/
def toHomogeneousPlus (p : V4) : M4 :=
  !![p 3, 0, 0, p 0;
     0, p 3, 0, p 1;
     0, 0, p 3, p 2;
     0, 0, 0, p 3]

/-- `toHomogeneousMinus` (src/homogeneous_coordinates.cpp:86-96). -/
def toHomogeneousMinus (p : V4) : M4 :=
  !![p 3, 0, 0, -p 0;
     0, p 3, 0, -p 1;
     0, 0, p 3, -p 2;
     0, 0, 0, p 3]

/-- `v.norm()` (Eigen). -/
noncomputable def vnorm {n : ℕ} (v : Fin n → ℝ) : ℝ := √(∑ i, v i * v i)

/-- The value of `normalizeAndJacobian` (include/sm_kinematics/homogeneous_coordinates.hpp:26-33). -/
noncomputable def normalizeV {n : ℕ} (v : Fin n → ℝ) : Fin n → ℝ :=
  let recip := 1 / vnorm v
  fun i => v i * recip

/-- The Jacobian of `normalizeAndJacobian` (include/sm_kinematics/homogeneous_coordinates.hpp:28-30). -/
noncomputable def normalizeJ {n : ℕ} (v : Fin n → ℝ) : Matrix (Fin n) (Fin n) ℝ :=
  let recip := 1 / vnorm v
  recip • (1 : Matrix (Fin n) (Fin n) ℝ) - (recip * recip * recip) • vecMulVec v v

/-! ## HomogeneousPoint.cpp -/

/-- `HomogeneousPoint::operator+` (HomogeneousPoint.cpp:39-46). -/
def pointAdd (p r : V4) : V4 :=
  ![p 0 * r 3 + r 0 * p 3, p 1 * r 3 + r 1 * p 3, p 2 * r 3 + r 2 * p 3, p 3 * r 3]

/-- `HomogeneousPoint::operator-` (HomogeneousPoint.cpp:91-98). -/
def pointSub (p r : V4) : V4 :=
  ![p 0 * r 3 - r 0 * p 3, p 1 * r 3 - r 1 * p 3, p 2 * r 3 - r 2 * p 3, p 3 * r 3]

/-- `HomogeneousPoint::oplus` (HomogeneousPoint.cpp:104-107). -/
noncomputable def pointOplus (p : V4) (dp : V3) : V4 := updateQuat p dp

/-- `HomogeneousPoint::scale` (HomogeneousPoint.cpp:124-129). -/
def pointScale (p : V4) (s : ℝ) : V4 := ![p 0 * s, p 1 * s, p 2 * s, p 3]

/-- `HomogeneousPoint::toEuclidean` (HomogeneousPoint.cpp:132-138). -/
noncomputable def toEuclidean (p : V4) : V3 :=
  let recip := 1 / p 3
  ![p 0 * recip, p 1 * recip, p 2 * recip]

/-- The Jacobian of `toHomogeneousAndJacobian` (HomogeneousPoint.cpp:164-188). -/
noncomputable def homogeneousJ (p : V4) : Matrix (Fin 4) (Fin 3) ℝ :=
  (1 / 2 : ℝ) • !![p 3, -p 2, p 1;
                   p 2, p 3, -p 0;
                   -p 1, p 0, p 3;
                   -p 0, -p 1, -p 2]

/-- The Jacobian of `toEuclideanAndJacobian` (HomogeneousPoint.cpp:141-155). -/
noncomputable def euclideanJ (p : V4) : Matrix (Fin 3) (Fin 3) ℝ :=
  let recip := 1 / p 3
  let v3 := toEuclidean p
  !![recip, 0, 0, -v3 0 * recip;
     0, recip, 0, -v3 1 * recip;
     0, 0, recip, -v3 2 * recip] * homogeneousJ p

/-! ## UncertainHomogeneousPoint.cpp -/

/-- The members of `UncertainHomogeneousPoint`: `_ph` and `_U`. -/
structure UPoint where
  p : V4
  U : M4

/-- A covariance of three rows and columns in the upper left corner of one of four. -/
def corner (U : M3) : M4 :=
  !![U 0 0, U 0 1, U 0 2, 0;
     U 1 0, U 1 1, U 1 2, 0;
     U 2 0, U 2 1, U 2 2, 0;
     0, 0, 0, 0]

/-- `UncertainHomogeneousPoint(p, U3)` (UncertainHomogeneousPoint.cpp:39-44), with
`HomogeneousPoint(Vector3d)` (HomogeneousPoint.cpp:17-21). -/
def UPoint.ofEuclidean (p : V3) (U3 : M3) : UPoint := ⟨![p 0, p 1, p 2, 1], corner U3⟩

/-- `U3` (UncertainHomogeneousPoint.cpp:101-106). -/
noncomputable def UPoint.U3 (a : UPoint) : M3 :=
  fromHomogeneousJacobian a.p * a.U * (fromHomogeneousJacobian a.p)ᵀ

open Classical in
/-- `U_av_form` (UncertainHomogeneousPoint.cpp:109-115): it throws for a point that is not on the unit sphere. -/
noncomputable def UPoint.Uav (a : UPoint) : Out M3 :=
  if |norm4 a.p - 1| ≤ 1 / 10 ^ 6 then .ok (quatS a.p * a.U * (quatS a.p)ᵀ)
  else .raise

open Classical in
/-- `setUOplus` (UncertainHomogeneousPoint.cpp:127-132): it throws for a point that is not on the unit sphere. -/
noncomputable def UPoint.setUOplus (a : UPoint) (U : M3) : Out UPoint :=
  if |norm4 a.p - 1| ≤ 1 / 10 ^ 6 then
    .ok { a with U := quatInvS a.p * U * (quatInvS a.p)ᵀ }
  else .raise

/-- `normalize` (UncertainHomogeneousPoint.cpp:143-149). -/
noncomputable def UPoint.normalize (a : UPoint) : UPoint :=
  ⟨normalizeV a.p, normalizeJ a.p * a.U * (normalizeJ a.p)ᵀ⟩

/-- `operator+(UncertainHomogeneousPoint)` (UncertainHomogeneousPoint.cpp:184-194). -/
def UPoint.add (a b : UPoint) : UPoint :=
  let PL := toHomogeneousPlus a.p
  let PR := toHomogeneousPlus b.p
  ⟨pointAdd a.p b.p, PR * a.U * PRᵀ + PL * b.U * PLᵀ⟩

/-- `operator-(UncertainHomogeneousPoint)` (UncertainHomogeneousPoint.cpp:199-210). -/
def UPoint.sub (a b : UPoint) : UPoint :=
  let PL := toHomogeneousPlus a.p
  let PR := toHomogeneousPlus b.p
  ⟨pointSub a.p b.p, PR * a.U * PRᵀ + PL * b.U * PLᵀ⟩

/-- `operator+(HomogeneousPoint)` (UncertainHomogeneousPoint.cpp:155-164). -/
def UPoint.addP (a : UPoint) (r : V4) : UPoint := ⟨pointAdd a.p r, a.U⟩

/-- `operator-(HomogeneousPoint)` (UncertainHomogeneousPoint.cpp:169-178). -/
def UPoint.subP (a : UPoint) (r : V4) : UPoint := ⟨pointSub a.p r, a.U⟩

/-- `HomogeneousPoint::operator+(UncertainHomogeneousPoint)` (HomogeneousPoint.cpp:48-56). -/
def UPoint.pAdd (p : V4) (b : UPoint) : UPoint := ⟨pointAdd p b.p, b.U⟩

/-- `HomogeneousPoint::operator-(UncertainHomogeneousPoint)` (HomogeneousPoint.cpp:62-69). -/
def UPoint.pSub (p : V4) (b : UPoint) : UPoint := ⟨pointSub p b.p, b.U⟩

/-! ## UncertainTransformation.cpp -/

abbrev M6 := Matrix (Fin 6) (Fin 6) ℝ

/-- An uncertain transformation: the base class `Transformation` and `_U`. -/
structure UTrafo where
  A : Trafo
  U : M6

/-- The constructors with a variance for translation and one for rotation
(UncertainTransformation.cpp:21-31, 41-54, 62-72). -/
def UTrafo.diag (A : Trafo) (vt vr : ℝ) : UTrafo := ⟨A, Matrix.diagonal ![vt, vt, vt, vr, vr, vr]⟩

/-- The constructors without uncertainty (UncertainTransformation.cpp:8-12, 75-94). -/
def UTrafo.certain (A : Trafo) : UTrafo := ⟨A, 0⟩

/-- The matrix `S` of `UOplus` and `setUOplus` (UncertainTransformation.cpp:117-119, 179-181). -/
def oplusS (t : V3) : M6 := blocks6 1 (-crossMx t) 0 1

/-- `UOplus` (UncertainTransformation.cpp:115-121). -/
noncomputable def UTrafo.UOplus (a : UTrafo) : M6 := (oplusS a.A.t)⁻¹ * a.U * ((oplusS a.A.t)ᵀ)⁻¹

/-- `setUOplus` (UncertainTransformation.cpp:176-184). -/
def UTrafo.setUOplus (a : UTrafo) (U : M6) : UTrafo := { a with U := oplusS a.A.t * U * (oplusS a.A.t)ᵀ }

/-- `operator*(UncertainTransformation)` (UncertainTransformation.cpp:123-134). -/
noncomputable def UTrafo.mul (a b : UTrafo) : UTrafo :=
  let B := boxTimes a.A.T
  ⟨a.A.mul b.A, a.U + B * b.U * Bᵀ⟩

/-- `inverse` (UncertainTransformation.cpp:137-149). -/
noncomputable def UTrafo.inverse (a : UTrafo) : UTrafo :=
  let B := boxTimes a.A.inverse.T
  ⟨a.A.inverse, B * a.U * Bᵀ⟩

/-- `operator*(Transformation)` (UncertainTransformation.cpp:201-209). -/
noncomputable def UTrafo.mulT (a : UTrafo) (B : Trafo) : UTrafo := ⟨a.A.mul B, a.U⟩

/-- `Transformation::operator*(UncertainTransformation)` (Transformation.cpp:181-193). -/
noncomputable def UTrafo.tMul (A : Trafo) (b : UTrafo) : UTrafo :=
  let B := boxTimes A.T
  ⟨A.mul b.A, B * b.U * Bᵀ⟩

/-- `operator*(UncertainHomogeneousPoint)` (UncertainTransformation.cpp:187-199). -/
def UTrafo.apply (a : UTrafo) (p : UPoint) : UPoint :=
  let p0 := a.A.applyH p.p
  let Jt := boxMinus p0
  ⟨p0, Jt * a.U * Jtᵀ + a.A.T * p.U * (a.A.T)ᵀ⟩

/-- `operator*(HomogeneousPoint)` (UncertainTransformation.cpp:211-221). -/
def UTrafo.applyP (a : UTrafo) (p : V4) : UPoint :=
  let p0 := a.A.applyH p
  let Jt := boxMinus p0
  ⟨p0, Jt * a.U * Jtᵀ⟩

/-- `Transformation::operator*(UncertainHomogeneousPoint)` (Transformation.cpp:195-205). -/
def UPoint.tApply (A : Trafo) (p : UPoint) : UPoint := ⟨A.applyH p.p, A.T * p.U * (A.T)ᵀ⟩

/-! ## UncertainVector -/

/-- The members of `UncertainVector<D>`. -/
structure UVec (n : ℕ) where
  v : Fin n → ℝ
  E : Matrix (Fin n) (Fin n) ℝ

/-- The members of `UncertainVector<1>`, which has its own implementation. -/
structure UScal where
  v : ℝ
  s : ℝ

section
variable {n : ℕ}

/-- `operator*(linear_operator_t, UncertainVector)` (implementation/UncertainVector.hpp:3-7). -/
def UVec.linear (M : Matrix (Fin n) (Fin n) ℝ) (a : UVec n) : UVec n := ⟨M.mulVec a.v, M * a.E * Mᵀ⟩

/-- `operator+` (implementation/UncertainVector.hpp:101-105). -/
def UVec.add (a b : UVec n) : UVec n := ⟨a.v + b.v, a.E + b.E⟩

/-- `operator+(value_t)` (implementation/UncertainVector.hpp:108-113). -/
def UVec.addV (a : UVec n) (b : Fin n → ℝ) : UVec n := ⟨a.v + b, a.E⟩

/-- `operator-` (implementation/UncertainVector.hpp:116-120). -/
def UVec.sub (a b : UVec n) : UVec n := ⟨a.v - b.v, a.E + b.E⟩

/-- `operator-(value_t)` (implementation/UncertainVector.hpp:123-127). -/
def UVec.subV (a : UVec n) (b : Fin n → ℝ) : UVec n := ⟨a.v - b, a.E⟩

/-- `operator*(UncertainVector<1>)` (implementation/UncertainVector.hpp:130-134), also
`UncertainVector<1>::operator*(UncertainVector<DD>)` (367-371). -/
def UVec.mulS (a : UVec n) (s : UScal) : UVec n :=
  ⟨s.v • a.v, s.s • vecMulVec a.v a.v + (s.v * s.v) • a.E⟩

/-- `operator*(double)` (implementation/UncertainVector.hpp:136-140). -/
def UVec.mulR (a : UVec n) (s : ℝ) : UVec n := ⟨s • a.v, (s * s) • a.E⟩

/-- `UncertainVector<1>::operator*(Eigen::Matrix)` (implementation/UncertainVector.hpp:373-377). -/
def UScal.mulV (s : UScal) (r : Fin n → ℝ) : UVec n := ⟨s.v • r, s.s • vecMulVec r r⟩

/-- `normalized`, `normalize` (implementation/UncertainVector.hpp:142-159). -/
noncomputable def UVec.normalized (a : UVec n) : UVec n :=
  ⟨normalizeV a.v, normalizeJ a.v * a.E * (normalizeJ a.v)ᵀ⟩

/-- `dot(UncertainVector)` (implementation/UncertainVector.hpp:161-165). -/
def UVec.dot (a b : UVec n) : UScal := ⟨a.v ⬝ᵥ b.v, a.v ⬝ᵥ b.E.mulVec a.v + b.v ⬝ᵥ a.E.mulVec b.v⟩

/-- `dot(value_t)` (implementation/UncertainVector.hpp:167-171). -/
def UVec.dotV (a : UVec n) (r : Fin n → ℝ) : UScal := ⟨a.v ⬝ᵥ r, r ⬝ᵥ a.E.mulVec r⟩

end

/-- `UncertainVector<1>::dot` and `operator*` (implementation/UncertainVector.hpp:291-294, 306-309). -/
def UScal.mul (a b : UScal) : UScal := ⟨a.v * b.v, b.v * a.s * b.v + a.v * b.s * a.v⟩

/-- `UncertainVector<1>::dot(value_t)`, `operator*(value_t)` (implementation/UncertainVector.hpp:298-302,
313-316). -/
def UScal.mulR (a : UScal) (r : ℝ) : UScal := ⟨a.v * r, r * a.s * r⟩

/-- `UncertainVector<1>::operator+` (implementation/UncertainVector.hpp:320-323). -/
def UScal.add (a b : UScal) : UScal := ⟨a.v + b.v, a.s + b.s⟩

/-- `UncertainVector<1>::operator-` (implementation/UncertainVector.hpp:334-337). -/
def UScal.sub (a b : UScal) : UScal := ⟨a.v - b.v, a.s + b.s⟩

/-- `UncertainVector<1>::operator/` (implementation/UncertainVector.hpp:348-354). -/
noncomputable def UScal.div (a b : UScal) : UScal :=
  let dfda := 1 / b.v
  let dfdb := -a.v / (b.v * b.v)
  ⟨a.v / b.v, dfda * a.s * dfda + dfdb * b.s * dfdb⟩

/-- `UncertainVector<1>::operator/(value_t)` (implementation/UncertainVector.hpp:358-364). -/
noncomputable def UScal.divR (a : UScal) (r : ℝ) : UScal :=
  let dfda := 1 / r
  ⟨a.v / r, dfda * a.s * dfda⟩

/-- `Transformation::rotate(UncertainVector3)` (Transformation.cpp:221-229). -/
def UVec.rotate (A : Trafo) (a : UVec 3) : UVec 3 :=
  ⟨quatRotate A.q a.v, A.C * a.E * (A.C)ᵀ⟩

end Kalibr.Unc
