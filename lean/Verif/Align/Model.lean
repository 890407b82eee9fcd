import Verif.Kinematics.Quat
import Mathlib.LinearAlgebra.Matrix.Trace

/-!
# Fitting a transformation or a rotation to matched points

A model of `Schweizer-Messer/sm_kinematics/src/three_point_methods.cpp`: `threePointSvd` and `qMethod`.  A
`3 x K` matrix of points is the function that gives its columns.  The two decompositions of Eigen
(`JacobiSVD`, `SelfAdjointEigenSolver`) are not modelled: each is a function of the matrix handed in, and
`IsSvd` and `IsEigen` say what Eigen's documentation promises of it.  The `_DBG` assertions are compiled out of
release builds.
-/

namespace Kalibr.Align

open Matrix Kin

/-- What `JacobiSVD` returns: `matrixU()`, `singularValues()`, `matrixV()` (three_point_methods.cpp:42-44). -/
structure Svd where
  U : M3
  s : V3
  V : M3

/-- What Eigen promises of the decomposition of `H`: `U` and `V` are orthogonal, `H = U S Vᵀ`, and the singular
values are not negative and decrease. -/
structure IsSvd (H : M3) (d : Svd) : Prop where
  u : d.Uᵀ * d.U = 1
  v : d.Vᵀ * d.V = 1
  eq : H = d.U * diagonal d.s * d.Vᵀ
  s01 : d.s 1 ≤ d.s 0
  s12 : d.s 2 ≤ d.s 1
  s2 : 0 ≤ d.s 2

/-- What `SelfAdjointEigenSolver<Matrix4d>` returns (three_point_methods.cpp:99-101,116). -/
structure Eig where
  values : V4
  vectors : M4

/-- What Eigen promises of the decomposition of the symmetric matrix `K`: the columns of `vectors` are
orthonormal eigenvectors for `values`. -/
structure IsEigen (K : M4) (e : Eig) : Prop where
  ortho : e.vectorsᵀ * e.vectors = 1
  eq : K * e.vectors = e.vectors * diagonal e.values

variable {K : ℕ}

/-- `p.rowwise().mean()` (three_point_methods.cpp:21-22). -/
noncomputable def mean (p : Fin K → V3) : V3 := (K : ℝ)⁻¹ • ∑ i, p i

/-- The matrix `H` the loop sums up (three_point_methods.cpp:24-38). -/
noncomputable def crossCov (p0 p1 : Fin K → V3) : M3 :=
  ∑ i, vecMulVec (p0 i - mean p0) (p1 i - mean p1)

/-- `V.col(2) = V.col(2) * -1.0` (three_point_methods.cpp:49). -/
def flipCol2 (V : M3) : M3 := of fun i j => if j = 2 then V i j * -1 else V i j

open Classical in
/-- The rotation from the decomposition (three_point_methods.cpp:43-51). -/
noncomputable def rotOfSvd (d : Svd) : M3 :=
  let R := d.V * d.Uᵀ
  if R.det < 0 then flipCol2 d.V * d.Uᵀ else R

/-- The `4 x 4` matrix of a rotation and a translation (three_point_methods.cpp:55-59). -/
def tfm (C : M3) (t : V3) : M4 :=
  !![C 0 0, C 0 1, C 0 2, t 0;
     C 1 0, C 1 1, C 1 2, t 1;
     C 2 0, C 2 1, C 2 2, t 2;
     0, 0, 0, 1]

/-- `threePointSvd` (three_point_methods.cpp:13-63). -/
noncomputable def threePointSvd (svd : M3 → Svd) (p0 p1 : Fin K → V3) : M4 :=
  let c0 := mean p0
  let c1 := mean p1
  let R := rotOfSvd (svd (crossCov p0 p1))
  let tr := c0 - Rᵀ.mulVec c1
  tfm Rᵀ tr

/-- `W * V.transpose()` for the columns scaled by the square roots of the weights
(three_point_methods.cpp:72-85). -/
noncomputable def profile (p0 p1 : Fin K → V3) (w : Fin K → ℝ) : M3 :=
  ∑ i, vecMulVec (√(w i) • p0 i) (√(w i) • p1 i)

/-- The matrix `K` of Davenport's method (three_point_methods.cpp:86-97). -/
def davenport (B : M3) : M4 :=
  let Q := B + Bᵀ
  let Z : V3 := ![B 1 2 - B 2 1, B 2 0 - B 0 2, B 0 1 - B 1 0]
  let sigma := B 0 0 + B 1 1 + B 2 2
  !![Q 0 0 - sigma, Q 0 1, Q 0 2, Z 0;
     Q 1 0, Q 1 1 - sigma, Q 1 2, Z 1;
     Q 2 0, Q 2 1, Q 2 2 - sigma, Z 2;
     Z 0, Z 1, Z 2, sigma]

/-- The rotation of the quaternion (three_point_methods.cpp:119-122). -/
def davenportRot (q : V4) : M3 :=
  let qv : V3 := ![q 0, q 1, q 2]
  let qs := q 3
  (qs * qs - qv ⬝ᵥ qv) • (1 : M3) + (2 : ℝ) • vecMulVec qv qv - (2 * qs) • crossMx qv

/-- `qMethod` with weights (three_point_methods.cpp:65-125): the eigenvector of the largest eigenvalue, of the
first of them if there are several, divided by its length. -/
noncomputable def qMethod (eig : M4 → Eig) (p0 p1 : Fin K → V3) (w : Fin K → ℝ) : M3 :=
  let e := eig (davenport (profile p0 p1 w))
  let q := fun i => e.vectors i (argmax e.values)
  davenportRot ((norm4 q)⁻¹ • q)

/-- `qMethod` without weights (three_point_methods.cpp:127-130). -/
noncomputable def qMethod1 (eig : M4 → Eig) (p0 p1 : Fin K → V3) : M3 := qMethod eig p0 p1 fun _ => 1

/-! ## Specification -/

/-- The square of the distance of two points. -/
def dist2 (a b : V3) : ℝ := (a 0 - b 0) ^ 2 + (a 1 - b 1) ^ 2 + (a 2 - b 2) ^ 2

/-- A point in the frame the `4 x 4` matrix leads to. -/
def transform (T : M4) (p : V3) : V3 := fun i =>
  T i.castSucc 0 * p 0 + T i.castSucc 1 * p 1 + T i.castSucc 2 * p 2 + T i.castSucc 3

/-- A rigid transformation: a proper rotation beside a translation, and the last row `0 0 0 1`. -/
def Rigid (T : M4) : Prop := ∃ (C : M3) (t : V3), C ∈ SO3 ∧ T = tfm C t

/-- Three points that are not on one line. -/
def NotCollinear (a b c : V3) : Prop := crossProduct (b - a) (c - a) ≠ 0

end Kalibr.Align
