import Verif.Kinematics.Transform
import Verif.Kinematics.EulerModel
import Mathlib.LinearAlgebra.Matrix.NonsingularInverse

/-!
# Expressions of design variables

A model of `aslam_optimizer/aslam_backend_expressions/src`: the trees of expression nodes the error terms are
built from, their evaluation and their Jacobians.  Paths below are relative to that directory.

An expression of kind `k` is a tree of nodes.  Some node classes hold copies of the values of their children in
`mutable` members, which the evaluation writes and the Jacobian reads; these nodes have an address `id`, and the
members of the object at each address are a `Slot` of a `Cache`.  Nodes are held by shared pointers: the same
node, with the same address, may occur several times in a tree.  The Jacobians an expression adds to a container
are the list of blocks handed to `JacobianContainer::add`, in the order of the calls; `Verif/Expr/Container.lean`
puts them into the model of the container.

Nodes of other packages whose value is a function of vectors, such as those of the splines, are leaves (`Leaf`).

Not modelled: generic matrix and vector expressions; debug assertions.  Constructors
of the caching nodes evaluate their children (as `eval` does) and are not modelled separately: the theorems hold
for every content of the members.
-/

namespace Kalibr.Exp

open Kalibr.Kin Matrix

/-- The six families of expressions: `RotationExpression`, `EuclideanExpression`, `ScalarExpression`,
`HomogeneousExpression`, `TransformationExpression`, `MatrixExpression`. -/
inductive Kind
  | rot | euc | sca | hom | tr | mat

/-- What an expression evaluates to. -/
abbrev Val : Kind → Type
  | .rot => M3
  | .euc => V3
  | .sca => ℝ
  | .hom => V4
  | .tr => M4
  | .mat => M3

/-- The number of columns of a chain rule matrix for an expression. -/
abbrev tdim : Kind → ℕ
  | .rot => 3
  | .euc => 3
  | .sca => 1
  | .hom => 4
  | .tr => 6
  | .mat => 9

/-! ## Design variables -/

/-- The entries of a `MatrixBasic` that may change, in the order of the increment, for the constructor without
pattern (MatrixBasic.cpp:11-13: `_B` is the identity, so column by column). -/
def cellsFull : List (Fin 3 × Fin 3) :=
  (List.finRange 3).flatMap fun col => (List.finRange 3).map fun row => (row, col)

/-- The same for the constructor with an update pattern (MatrixBasic.cpp:15-28: row by row, nonzero entries). -/
def cellsOf (U : Matrix (Fin 3) (Fin 3) ℤ) : List (Fin 3 × Fin 3) :=
  ((List.finRange 3).flatMap fun row => (List.finRange 3).map fun col => (row, col)).filter
    fun p => U p.1 p.2 ≠ 0

/-- The identity of a design variable.  `rot`, `euc` and `hom` also stand for `MappedRotationQuaternion`,
`MappedEuclideanPoint` and `MappedHomogeneousPoint`, whose members are references to the caller's memory and
whose methods used here are the same. -/
inductive DV
  | rot (i : ℕ)
  | euc (i : ℕ)
  | sca (i : ℕ)
  | hom (i : ℕ)
  | dir (i : ℕ)
  | mat (i : ℕ) (cells : List (Fin 3 × Fin 3))
  /-- `DesignVariableMappedVector<n>`, such as a coefficient of a spline -/
  | vec (i n : ℕ)
  deriving DecidableEq

/-- `minimalDimensions()`: RotationQuaternion.cpp:38-41, EuclideanPoint.cpp:35-38, Scalar.cpp:32-35,
HomogeneousPoint.cpp:35-38, EuclideanDirection.cpp:42-45, MatrixBasic.cpp:48-51,
DesignVariableMappedVector.hpp:67-72. -/
abbrev DV.dim : DV → ℕ
  | .rot _ => 3
  | .euc _ => 3
  | .sca _ => 1
  | .hom _ => 3
  | .dir _ => 2
  | .mat _ cells => cells.length
  | .vec _ n => n

/-- Members of `RotationQuaternion`. -/
structure RotDv where
  q : V4
  pq : V4
  C : M3

/-- Members of `EuclideanPoint`. -/
structure EucDv where
  p : V3
  pp : V3

/-- Members of `Scalar`. -/
structure ScaDv where
  p : ℝ
  pp : ℝ

/-- Members of `HomogeneousPoint`. -/
structure HomDv where
  p : V4
  pp : V4

/-- Members of `EuclideanDirection`. -/
structure DirDv where
  mag : ℝ
  C : M3
  pC : M3

/-- Members of `MatrixBasic` (`_B` is determined by the cells). -/
structure MatDv where
  A : M3
  pA : M3

/-- Members of `DesignVariableMappedVector<n>`. -/
structure VecDv (n : ℕ) where
  v : Fin n → ℝ
  pv : Fin n → ℝ

/-- All design variables there are. -/
structure State where
  rot : ℕ → RotDv
  euc : ℕ → EucDv
  sca : ℕ → ScaDv
  hom : ℕ → HomDv
  dir : ℕ → DirDv
  mat : ℕ → List (Fin 3 × Fin 3) → MatDv
  vec : ℕ → (n : ℕ) → VecDv n

/-- `_B` of `MatrixBasic` (MatrixBasic.cpp:17-27): column `k` has its one at the position of the `k`-th cell in
the matrix stored column by column. -/
def matB (cells : List (Fin 3 × Fin 3)) : Matrix (Fin 9) (Fin cells.length) ℝ :=
  Matrix.of fun a k => if (a : ℕ) = (cells.get k).2 * 3 + (cells.get k).1 then 1 else 0

/-- `Eigen::Map<Matrix3d>` of nine numbers: column by column. -/
def unvec (v : Fin 9 → ℝ) : M3 := !![v 0, v 3, v 6; v 1, v 4, v 7; v 2, v 5, v 8]

/-- `RotationQuaternion::updateImplementation` (RotationQuaternion.cpp:29-36,
MappedRotationQuaternion.cpp:23-30). -/
noncomputable def RotDv.update (d : RotDv) (dp : V3) : RotDv :=
  let q := updateQuat d.q dp
  ⟨q, d.q, quat2r q⟩

/-- `RotationQuaternion::revertUpdateImplementation` (RotationQuaternion.cpp:22-26). -/
def RotDv.revert (d : RotDv) : RotDv := ⟨d.pq, d.pq, quat2r d.pq⟩

/-- `RotationQuaternion::setParametersImplementation` (RotationQuaternion.cpp:73-78). -/
def RotDv.setParameters (d : RotDv) (q : V4) : RotDv := ⟨q, d.q, quat2r q⟩

/-- `EuclideanPoint::updateImplementation` (EuclideanPoint.cpp:23-32, MappedEuclideanPoint.cpp:23-32). -/
def EucDv.update (d : EucDv) (dp : V3) : EucDv := ⟨d.p + dp, d.p⟩

/-- `EuclideanPoint::revertUpdateImplementation` (EuclideanPoint.cpp:17-20). -/
def EucDv.revert (d : EucDv) : EucDv := ⟨d.pp, d.pp⟩

/-- `Scalar::updateImplementation` (Scalar.cpp:23-29). -/
def ScaDv.update (d : ScaDv) (dp : Fin 1 → ℝ) : ScaDv := ⟨d.p + dp 0, d.p⟩

/-- `Scalar::revertUpdateImplementation` (Scalar.cpp:17-20). -/
def ScaDv.revert (d : ScaDv) : ScaDv := ⟨d.pp, d.pp⟩

/-- `HomogeneousPoint::updateImplementation` (HomogeneousPoint.cpp:26-32). -/
noncomputable def HomDv.update (d : HomDv) (dp : V3) : HomDv := ⟨updateQuat d.p dp, d.p⟩

/-- `HomogeneousPoint::revertUpdateImplementation` (HomogeneousPoint.cpp:20-23). -/
def HomDv.revert (d : HomDv) : HomDv := ⟨d.pp, d.pp⟩

/-- `EuclideanDirection::updateImplementation` (EuclideanDirection.cpp:33-38); `_ypr` is
`EulerAnglesYawPitchRoll`. -/
noncomputable def DirDv.update (d : DirDv) (dp : Fin 2 → ℝ) : DirDv :=
  ⟨d.mag, d.C * (yprToR ![0, dp 0, dp 1])ᵀ, d.C⟩

/-- `EuclideanDirection::revertUpdateImplementation` (EuclideanDirection.cpp:26-29). -/
def DirDv.revert (d : DirDv) : DirDv := ⟨d.mag, d.pC, d.pC⟩

/-- `MatrixBasic::updateImplementation` (MatrixBasic.cpp:40-46). -/
def MatDv.update {cells : List (Fin 3 × Fin 3)} (d : MatDv) (dp : Fin cells.length → ℝ) : MatDv :=
  ⟨d.A + unvec ((matB cells).mulVec dp), d.A⟩

/-- `MatrixBasic::revertUpdateImplementation` (MatrixBasic.cpp:34-37). -/
def MatDv.revert (d : MatDv) : MatDv := ⟨d.pA, d.pA⟩

/-- `DesignVariableMappedVector::updateImplementation` (implementation/DesignVariableMappedVector.hpp:55-64). -/
def VecDv.update {n : ℕ} (d : VecDv n) (dp : Fin n → ℝ) : VecDv n := ⟨d.v + dp, d.v⟩

/-- `DesignVariableMappedVector::revertUpdateImplementation`
(implementation/DesignVariableMappedVector.hpp:48-53). -/
def VecDv.revert {n : ℕ} (d : VecDv n) : VecDv n := ⟨d.pv, d.pv⟩

/-- An increment for each design variable. -/
abbrev Incr := (d : DV) → Fin d.dim → ℝ

/-- `update` is called on every design variable, as `OptimizationProblem`'s users do for the active ones. -/
noncomputable def State.update (x : State) (δ : Incr) : State where
  rot i := (x.rot i).update (δ (.rot i))
  euc i := (x.euc i).update (δ (.euc i))
  sca i := (x.sca i).update (δ (.sca i))
  hom i := (x.hom i).update (δ (.hom i))
  dir i := (x.dir i).update (δ (.dir i))
  mat i cells := (x.mat i cells).update (δ (.mat i cells))
  vec i n := (x.vec i n).update (δ (.vec i n))

/-- `revertUpdate` is called on every design variable. -/
def State.revert (x : State) : State where
  rot i := (x.rot i).revert
  euc i := (x.euc i).revert
  sca i := (x.sca i).revert
  hom i := (x.hom i).revert
  dir i := (x.dir i).revert
  mat i cells := (x.mat i cells).revert
  vec i n := (x.vec i n).revert

/-! ## Kinematics used by the nodes -/

/-- `boxMinus` (sm_kinematics/src/transformations.cpp:45-53). -/
def boxMinus (p : V4) : Matrix (Fin 4) (Fin 6) ℝ :=
  !![p 3, 0, 0, 0, -p 2, p 1;
     0, p 3, 0, p 2, 0, -p 0;
     0, 0, p 3, -p 1, p 0, 0;
     0, 0, 0, 0, 0, 0]

/-- A matrix of four blocks with three rows and columns each. -/
def blocks6 (A B C D : M3) : Matrix (Fin 6) (Fin 6) ℝ :=
  !![A 0 0, A 0 1, A 0 2, B 0 0, B 0 1, B 0 2;
     A 1 0, A 1 1, A 1 2, B 1 0, B 1 1, B 1 2;
     A 2 0, A 2 1, A 2 2, B 2 0, B 2 1, B 2 2;
     C 0 0, C 0 1, C 0 2, D 0 0, D 0 1, D 0 2;
     C 1 0, C 1 1, C 1 2, D 1 0, D 1 1, D 1 2;
     C 2 0, C 2 1, C 2 2, D 2 0, D 2 1, D 2 2]

/-- `boxTimes` (sm_kinematics/src/transformations.cpp:132-142). -/
def boxTimes (T : M4) : Matrix (Fin 6) (Fin 6) ℝ :=
  blocks6 (transform2C T) (-crossMx (transform2rho T) * transform2C T) 0 (transform2C T)

/-- `toHomogeneous` (sm_kinematics/src/homogeneous_coordinates.cpp:11-18). -/
def toHomogeneous (v : V3) : V4 := ![v 0, v 1, v 2, 1]

/-- `fromHomogeneous` (sm_kinematics/src/homogeneous_coordinates.cpp:29-43). -/
noncomputable def fromHomogeneous (v : V4) : V3 :=
  let rv3 := 1 / v 3
  ![v 0 * rv3, v 1 * rv3, v 2 * rv3]

/-- The Jacobian `fromHomogeneous` returns (sm_kinematics/src/homogeneous_coordinates.cpp:36-40). -/
noncomputable def fromHomogeneousJacobian (v : V4) : Matrix (Fin 3) (Fin 4) ℝ :=
  let rv3 := 1 / v 3
  let v3 := fromHomogeneous v
  !![rv3, 0, 0, -v3 0 * rv3;
     0, rv3, 0, -v3 1 * rv3;
     0, 0, rv3, -v3 2 * rv3]

/-- The methods of `RotationalKinematics` that `EuclideanExpressionNodeRotationParameters` calls. -/
structure RK where
  /-- `parametersToRotationMatrix` -/
  toR : V3 → M3
  /-- `rotationMatrixToParameters` -/
  ofR : M3 → V3
  /-- `parametersToSMatrix` -/
  S : V3 → M3

/-! ## Nodes -/

/-- One block handed to `JacobianContainer::add`: a design variable and a matrix. -/
abbrev Block (m : ℕ) := (d : DV) × Matrix (Fin m) (Fin d.dim) ℝ

/-- The values of all vectors. -/
abbrev Vecs := (i n : ℕ) → Fin n → ℝ

/-- The values of the vectors in a state. -/
def State.vecs (x : State) : Vecs := fun i n => (x.vec i n).v

/-- A node class of another package whose value is computed from vectors and which keeps nothing between calls:
its value, the blocks it adds when no chain rule matrix is given, and the variables it reports.  With a chain rule
matrix such a class adds the same blocks multiplied by it (for the spline nodes BSplineExpressions.cpp in
aslam_nonparametric_estimation/aslam_splines/src). -/
structure Leaf (k : Kind) where
  value : Vecs → Val k
  blocks : Vecs → List (Block (tdim k))
  vars : List DV

/-- The trees of nodes. -/
inductive Expr : Kind → Type
  /-- `RotationQuaternion` -/
  | rotDv (i : ℕ) : Expr .rot
  /-- `RotationExpressionNodeMultiply` -/
  | rotMul (id : ℕ) (l r : Expr .rot) : Expr .rot
  /-- `RotationExpressionNodeInverse` -/
  | rotInv (id : ℕ) (e : Expr .rot) : Expr .rot
  /-- `RotationExpressionNodeTransformation` -/
  | rotOfTr (e : Expr .tr) : Expr .rot
  /-- `EuclideanPoint` -/
  | eucDv (i : ℕ) : Expr .euc
  /-- `EuclideanDirection` -/
  | dirDv (i : ℕ) : Expr .euc
  /-- `EuclideanExpressionNodeConstant` -/
  | eucConst (p : V3) : Expr .euc
  /-- `EuclideanExpressionNodeMultiply` -/
  | rotEuc (id : ℕ) (l : Expr .rot) (r : Expr .euc) : Expr .euc
  /-- `EuclideanExpressionNodeMatrixMultiply` -/
  | matEuc (id : ℕ) (l : Expr .mat) (r : Expr .euc) : Expr .euc
  /-- `EuclideanExpressionNodeCrossEuclidean` -/
  | cross (l r : Expr .euc) : Expr .euc
  /-- `EuclideanExpressionNodeAddEuclidean` -/
  | add (l r : Expr .euc) : Expr .euc
  /-- `EuclideanExpressionNodeSubtractEuclidean` -/
  | sub (l r : Expr .euc) : Expr .euc
  /-- `EuclideanExpressionNodeSubtractVector` -/
  | subVec (l : Expr .euc) (p : V3) : Expr .euc
  /-- `EuclideanExpressionNodeNegated` -/
  | neg (e : Expr .euc) : Expr .euc
  /-- `EuclideanExpressionNodeScalarMultiply` -/
  | smul (p : Expr .euc) (s : Expr .sca) : Expr .euc
  /-- `EuclideanExpressionNodeElementwiseMultiplyEuclidean` -/
  | cwise (l r : Expr .euc) : Expr .euc
  /-- `EuclideanExpressionNodeTranslation` -/
  | transl (e : Expr .tr) : Expr .euc
  /-- `EuclideanExpressionNodeRotationParameters` -/
  | rotParams (rk : RK) (e : Expr .rot) : Expr .euc
  /-- `EuclideanExpressionNodeFromHomogeneous` -/
  | ofHom (e : Expr .hom) : Expr .euc
  /-- `Scalar` -/
  | scaDv (i : ℕ) : Expr .sca
  /-- `ScalarExpressionNodeConstant` -/
  | scaConst (s : ℝ) : Expr .sca
  /-- `ScalarExpressionNodeMultiply` -/
  | scaMul (l r : Expr .sca) : Expr .sca
  /-- `ScalarExpressionNodeDivide` -/
  | scaDiv (l r : Expr .sca) : Expr .sca
  /-- `ScalarExpressionNodeAdd` with its `_multiplyRhs` -/
  | scaAdd (l r : Expr .sca) (m : ℝ) : Expr .sca
  /-- `HomogeneousPoint` -/
  | homDv (i : ℕ) : Expr .hom
  /-- `HomogeneousExpressionNodeConstant` -/
  | homConst (p : V4) : Expr .hom
  /-- `HomogeneousExpressionNodeMultiply` -/
  | trHom (id : ℕ) (l : Expr .tr) (r : Expr .hom) : Expr .hom
  /-- `HomogeneousExpressionNodeEuclidean` -/
  | homOfEuc (e : Expr .euc) : Expr .hom
  /-- `TransformationBasic` -/
  | trBasic (C : Expr .rot) (t : Expr .euc) : Expr .tr
  /-- `TransformationExpressionNodeConstant` -/
  | trConst (T : M4) : Expr .tr
  /-- `TransformationExpressionNodeMultiply` -/
  | trMul (id : ℕ) (l r : Expr .tr) : Expr .tr
  /-- `TransformationExpressionNodeInverse` -/
  | trInv (id : ℕ) (e : Expr .tr) : Expr .tr
  /-- `MatrixBasic` -/
  | matDv (i : ℕ) (cells : List (Fin 3 × Fin 3)) : Expr .mat
  /-- a node of another package -/
  | leaf {k : Kind} (L : Leaf k) : Expr k

/-- The `mutable` members of a caching node.  `C1` is `_C_lhs`, `_A_lhs` or `_C`, `C2` is `_C_rhs`, `p` and `h` are
`_p_rhs`, `T1` is `_T_lhs` or `_T`, `T2` is `_T_rhs`; each class uses those it has. -/
structure Slot where
  C1 : M3
  C2 : M3
  p : V3
  h : V4
  T1 : M4
  T2 : M4

/-- The members of the caching nodes, by address. -/
abbrev Cache := ℕ → Slot

/-- Computations that read and write the members of the nodes. -/
abbrev W := StateM Cache

/-- Write the members of the node at an address. -/
def store (id : ℕ) (f : Slot → Slot) : W Unit := fun c => ((), Function.update c id (f (c id)))

/-- Read the members of the node at an address. -/
def load (id : ℕ) : W Slot := fun c => (c id, c)

/-- `toRotationMatrix`, `toEuclidean`, `toScalar`, `toHomogeneous`, `toTransformationMatrix`, `toMatrix3x3`. -/
noncomputable def eval (x : State) : {k : Kind} → Expr k → W (Val k)
  -- RotationQuaternion.cpp:43-46
  | _, .rotDv i => pure (x.rot i).C
  -- RotationExpressionNode.cpp:41-46
  | _, .rotMul id l r => do
    let a ← eval x l
    store id fun s => { s with C1 := a }
    let b ← eval x r
    store id fun s => { s with C2 := b }
    let s ← load id
    pure (s.C1 * s.C2)
  -- RotationExpressionNode.cpp:78-82
  | _, .rotInv id e => do
    let a ← eval x e
    store id fun s => { s with C1 := a }
    let s ← load id
    pure s.C1ᵀ
  -- RotationExpressionNode.cpp:111-113
  | _, .rotOfTr e => do
    let T ← eval x e
    pure (transform2C T)
  -- EuclideanPoint.cpp:40-43
  | _, .eucDv i => pure (x.euc i).p
  -- EuclideanDirection.cpp:54-57
  | _, .dirDv i => pure fun j => (x.dir i).mag * (x.dir i).C j 2
  -- EuclideanExpressionNode.cpp:271-274
  | _, .eucConst p => pure p
  -- EuclideanExpressionNode.cpp:68-74
  | _, .rotEuc id l r => do
    let a ← eval x l
    store id fun s => { s with C1 := a }
    let b ← eval x r
    store id fun s => { s with p := b }
    let s ← load id
    pure (s.C1.mulVec s.p)
  -- EuclideanExpressionNode.cpp:112-118
  | _, .matEuc id l r => do
    let a ← eval x l
    store id fun s => { s with C1 := a }
    let b ← eval x r
    store id fun s => { s with p := b }
    let s ← load id
    pure (s.C1.mulVec s.p)
  -- EuclideanExpressionNode.cpp:159-162
  | _, .cross l r => do
    let a ← eval x l
    let b ← eval x r
    pure ((crossMx a).mulVec b)
  -- EuclideanExpressionNode.cpp:199-202
  | _, .add l r => do
    let a ← eval x l
    let b ← eval x r
    pure (fun j => a j + b j)
  -- EuclideanExpressionNode.cpp:239-242
  | _, .sub l r => do
    let a ← eval x l
    let b ← eval x r
    pure (fun j => a j - b j)
  -- EuclideanExpressionNode.cpp:302-305
  | _, .subVec l p => do
    let a ← eval x l
    pure (fun j => a j - p j)
  -- EuclideanExpressionNode.cpp:334-337
  | _, .neg e => do
    let a ← eval x e
    pure (fun j => -a j)
  -- EuclideanExpressionNode.cpp:367-370
  | _, .smul p s => do
    let a ← eval x p
    let b ← eval x s
    pure (fun j => a j * b)
  -- EuclideanExpressionNode.cpp:532-535
  | _, .cwise l r => do
    let a ← eval x l
    let b ← eval x r
    pure (fun j => a j * b j)
  -- EuclideanExpressionNode.cpp:426-428
  | _, .transl e => do
    let T ← eval x e
    pure (transform2rho T)
  -- EuclideanExpressionNode.cpp:460-462
  | _, .rotParams rk e => do
    let a ← eval x e
    pure (rk.ofR a)
  -- EuclideanExpressionNode.cpp:491-493
  | _, .ofHom e => do
    let a ← eval x e
    pure (fromHomogeneous a)
  -- Scalar.cpp:37-40
  | _, .scaDv i => pure (x.sca i).p
  -- ScalarExpressionNode.hpp, toScalarImplementation of the constant
  | _, .scaConst s => pure s
  -- ScalarExpressionNode.cpp:57-60
  | _, .scaMul l r => do
    let a ← eval x l
    let b ← eval x r
    pure ((a : ℝ) * b)
  -- ScalarExpressionNode.cpp:97-100
  | _, .scaDiv l r => do
    let a ← eval x l
    let b ← eval x r
    pure ((a : ℝ) / b)
  -- ScalarExpressionNode.cpp:140-143
  | _, .scaAdd l r m => do
    let a ← eval x l
    let b ← eval x r
    pure ((a : ℝ) + m * b)
  -- HomogeneousPoint.cpp:40-43
  | _, .homDv i => pure (x.hom i).p
  -- HomogeneousExpressionNode.cpp:97
  | _, .homConst p => pure p
  -- HomogeneousExpressionNode.cpp:63-69
  | _, .trHom id l r => do
    let a ← eval x l
    store id fun s => { s with T1 := a }
    let b ← eval x r
    store id fun s => { s with h := b }
    let s ← load id
    pure (s.T1.mulVec s.h)
  -- HomogeneousExpressionNode.cpp:113-115
  | _, .homOfEuc e => do
    let a ← eval x e
    pure (toHomogeneous a)
  -- TransformationBasic.cpp:19-26
  | _, .trBasic C t => do
    let a ← eval x C
    let b ← eval x t
    pure (rt2Transform a b)
  -- TransformationExpressionNode.cpp:112
  | _, .trConst T => pure T
  -- TransformationExpressionNode.cpp:54-59
  | _, .trMul id l r => do
    let a ← eval x l
    store id fun s => { s with T1 := a }
    let b ← eval x r
    store id fun s => { s with T2 := b }
    let s ← load id
    pure (s.T1 * s.T2)
  -- TransformationExpressionNode.cpp:86-90; `.inverse()` of Eigen is the inverse matrix
  | _, .trInv id e => do
    let a ← eval x e
    store id fun s => { s with T1 := a⁻¹ }
    let s ← load id
    pure s.T1
  -- MatrixBasic.cpp:54-57
  | _, .matDv i cells => pure (x.mat i cells).A
  | _, .leaf L => pure (L.value x.vecs)

/-- A chain rule matrix for an expression of kind `k`. -/
abbrev Chain (m : ℕ) (k : Kind) := Matrix (Fin m) (Fin (tdim k)) ℝ

/-- `Eigen::MatrixXd::Zero(3,6)` with the identity on the right (RotationExpressionNode.cpp:122-123). -/
def jRotOfTr : Matrix (Fin 3) (Fin 6) ℝ :=
  !![0, 0, 0, 1, 0, 0; 0, 0, 0, 0, 1, 0; 0, 0, 0, 0, 0, 1]

/-- `Eigen::MatrixXd::Identity(3,6)` with `crossMx(p)` on the right (EuclideanExpressionNode.cpp:438-440). -/
def jTransl (p : V3) : Matrix (Fin 3) (Fin 6) ℝ :=
  !![1, 0, 0, crossMx p 0 0, crossMx p 0 1, crossMx p 0 2;
     0, 1, 0, crossMx p 1 0, crossMx p 1 1, crossMx p 1 2;
     0, 0, 1, crossMx p 2 0, crossMx p 2 1, crossMx p 2 2]

/-- `crRotation` (TransformationBasic.cpp:56-58). -/
def jBasicRot (r : V3) : Matrix (Fin 6) (Fin 3) ℝ :=
  !![-crossMx r 0 0, -crossMx r 0 1, -crossMx r 0 2;
     -crossMx r 1 0, -crossMx r 1 1, -crossMx r 1 2;
     -crossMx r 2 0, -crossMx r 2 1, -crossMx r 2 2;
     1, 0, 0; 0, 1, 0; 0, 0, 1]

/-- `crTranslation` (TransformationBasic.cpp:62-64). -/
def jBasicTransl : Matrix (Fin 6) (Fin 3) ℝ :=
  !![1, 0, 0; 0, 1, 0; 0, 0, 1; 0, 0, 0; 0, 0, 0; 0, 0, 0]

/-- `Eigen::MatrixXd::Identity(4,3)` (HomogeneousExpressionNode.cpp:122). -/
def jHomOfEuc : Matrix (Fin 4) (Fin 3) ℝ :=
  !![1, 0, 0; 0, 1, 0; 0, 0, 1; 0, 0, 0]

/-- `J_full` (EuclideanExpressionNode.cpp:130-131). -/
def jFull (p : V3) : Matrix (Fin 3) (Fin 9) ℝ :=
  !![p 0, 0, 0, p 1, 0, 0, p 2, 0, 0;
     0, p 0, 0, 0, p 1, 0, 0, p 2, 0;
     0, 0, p 0, 0, 0, p 1, 0, 0, p 2]

/-- `J` of `EuclideanDirection` (EuclideanDirection.cpp:72-75). -/
def jDir (d : DirDv) : Matrix (Fin 3) (Fin 2) ℝ :=
  !![-d.C 0 0 * d.mag, d.C 0 1 * d.mag;
     -d.C 1 0 * d.mag, d.C 1 1 * d.mag;
     -d.C 2 0 * d.mag, d.C 2 1 * d.mag]

/-- A vector as a matrix of one column. -/
def col3 (v : V3) : Matrix (Fin 3) (Fin 1) ℝ := !![v 0; v 1; v 2]

/-- A matrix of one entry. -/
def mx1 (a : ℝ) : Matrix (Fin 1) (Fin 1) ℝ := !![a]

/-- `evaluateJacobians(outJacobians, applyChainRule)`. -/
noncomputable def jac (x : State) {m : ℕ} : {k : Kind} → Expr k → Chain m k → W (List (Block m))
  -- RotationQuaternion.cpp:53-56
  | _, .rotDv i, M => pure [⟨.rot i, M⟩]
  -- RotationExpressionNode.cpp:54-58
  | _, .rotMul id l r, M => do
    let s ← load id
    let b ← jac x r (k := .rot) (M * s.C1 : Matrix (Fin m) (Fin 3) ℝ)
    let a ← jac x l M
    pure (b ++ a)
  -- RotationExpressionNode.cpp:89-92
  | _, .rotInv id e, M => do
    let s ← load id
    jac x e (k := .rot) (-M * s.C1ᵀ : Matrix (Fin m) (Fin 3) ℝ)
  -- RotationExpressionNode.cpp:121-126
  | _, .rotOfTr e, M => jac x e (k := .tr) (M * jRotOfTr : Matrix (Fin m) (Fin 6) ℝ)
  -- EuclideanPoint.cpp:50-53
  | _, .eucDv i, M => pure [⟨.euc i, M⟩]
  -- EuclideanDirection.cpp:70-77
  | _, .dirDv i, M => pure [⟨.dir i, (M * jDir (x.dir i) : Matrix (Fin m) (Fin 2) ℝ)⟩]
  -- EuclideanExpressionNode.cpp:280-282
  | _, .eucConst _, _ => pure []
  -- EuclideanExpressionNode.cpp:82-86
  | _, .rotEuc id l r, M => do
    let s ← load id
    let a ← jac x l (k := .rot) (M * crossMx (s.C1.mulVec s.p) : Matrix (Fin m) (Fin 3) ℝ)
    let s ← load id
    let b ← jac x r (k := .euc) (M * s.C1 : Matrix (Fin m) (Fin 3) ℝ)
    pure (a ++ b)
  -- EuclideanExpressionNode.cpp:128-134
  | _, .matEuc id l r, M => do
    let s ← load id
    let a ← jac x l (k := .mat) (M * jFull s.p : Matrix (Fin m) (Fin 9) ℝ)
    let s ← load id
    let b ← jac x r (k := .euc) (M * s.C1 : Matrix (Fin m) (Fin 3) ℝ)
    pure (a ++ b)
  -- EuclideanExpressionNode.cpp:170-174
  | _, .cross l r, M => do
    let v ← eval x r
    let a ← jac x l (k := .euc) (-M * crossMx v : Matrix (Fin m) (Fin 3) ℝ)
    let u ← eval x l
    let b ← jac x r (k := .euc) (M * crossMx u : Matrix (Fin m) (Fin 3) ℝ)
    pure (a ++ b)
  -- EuclideanExpressionNode.cpp:210-214
  | _, .add l r, M => do
    let a ← jac x l M
    let b ← jac x r M
    pure (a ++ b)
  -- EuclideanExpressionNode.cpp:250-254
  | _, .sub l r, M => do
    let a ← jac x l M
    let b ← jac x r (-M)
    pure (a ++ b)
  -- EuclideanExpressionNode.cpp:312-315
  | _, .subVec l _, M => jac x l M
  -- EuclideanExpressionNode.cpp:344-347
  | _, .neg e, M => jac x e (-M)
  -- EuclideanExpressionNode.cpp:378-382
  | _, .smul p s, M => do
    let v ← eval x s
    let a ← jac x p (k := .euc) ((v : ℝ) • M : Matrix (Fin m) (Fin 3) ℝ)
    let u ← eval x p
    let b ← jac x s (k := .sca) (M * col3 u : Matrix (Fin m) (Fin 1) ℝ)
    pure (a ++ b)
  -- EuclideanExpressionNode.cpp:543-547
  | _, .cwise l r, M => do
    let v ← eval x r
    let a ← jac x l (k := .euc) (M * Matrix.diagonal v : Matrix (Fin m) (Fin 3) ℝ)
    let u ← eval x l
    let b ← jac x r (k := .euc) (M * Matrix.diagonal u : Matrix (Fin m) (Fin 3) ℝ)
    pure (a ++ b)
  -- EuclideanExpressionNode.cpp:437-442
  | _, .transl e, M => do
    let T ← eval x e
    jac x e (k := .tr) (M * jTransl (transform2rho T) : Matrix (Fin m) (Fin 6) ℝ)
  -- EuclideanExpressionNode.cpp:471-476
  | _, .rotParams rk e, M => do
    let C ← eval x e
    jac x e (k := .rot) (M * (rk.S (rk.ofR C))⁻¹ : Matrix (Fin m) (Fin 3) ℝ)
  -- EuclideanExpressionNode.cpp:502-507
  | _, .ofHom e, M => do
    let v ← eval x e
    jac x e (k := .hom) (M * fromHomogeneousJacobian v : Matrix (Fin m) (Fin 4) ℝ)
  -- Scalar.cpp:49-52
  | _, .scaDv i, M => pure [⟨.sca i, M⟩]
  -- ScalarExpressionNode.hpp, the constant
  | _, .scaConst _, _ => pure []
  -- ScalarExpressionNode.cpp:71-78
  | _, .scaMul l r, M => do
    let u ← eval x l
    let v ← eval x r
    let a ← jac x l (k := .sca) (M * mx1 v : Matrix (Fin m) (Fin 1) ℝ)
    let b ← jac x r (k := .sca) (M * mx1 u : Matrix (Fin m) (Fin 1) ℝ)
    pure (a ++ b)
  -- ScalarExpressionNode.cpp:111-118
  | _, .scaDiv l r, M => do
    let v ← eval x r
    let u ← eval x l
    let v' ← eval x r
    let v'' ← eval x r
    let a ← jac x l (k := .sca) (M * mx1 (1 / (v : ℝ)) : Matrix (Fin m) (Fin 1) ℝ)
    let b ← jac x r (k := .sca) (M * mx1 (-(u : ℝ) / (v' * v'')) : Matrix (Fin m) (Fin 1) ℝ)
    pure (a ++ b)
  -- ScalarExpressionNode.cpp:153-157
  | _, .scaAdd l r t, M => do
    let a ← jac x l M
    let b ← jac x r (k := .sca) (t • M : Matrix (Fin m) (Fin 1) ℝ)
    pure (a ++ b)
  -- HomogeneousPoint.cpp:50-53
  | _, .homDv i, M => pure [⟨.hom i, (M * quatInvS (x.hom i).p : Matrix (Fin m) (Fin 3) ℝ)⟩]
  -- HomogeneousExpressionNode.cpp:99
  | _, .homConst _, _ => pure []
  -- HomogeneousExpressionNode.cpp:77-82
  | _, .trHom id l r, M => do
    let s ← load id
    let a ← jac x l (k := .tr) (M * boxMinus (s.T1.mulVec s.h) : Matrix (Fin m) (Fin 6) ℝ)
    let s ← load id
    let b ← jac x r (k := .hom) (M * s.T1 : Matrix (Fin m) (Fin 4) ℝ)
    pure (a ++ b)
  -- HomogeneousExpressionNode.cpp:121-123
  | _, .homOfEuc e, M => jac x e (k := .euc) (M * jHomOfEuc : Matrix (Fin m) (Fin 3) ℝ)
  -- TransformationBasic.cpp:48-67
  | _, .trBasic C t, M => do
    let r ← eval x t
    let a ← jac x C (k := .rot) (M * jBasicRot r : Matrix (Fin m) (Fin 3) ℝ)
    let b ← jac x t (k := .euc) (M * jBasicTransl : Matrix (Fin m) (Fin 3) ℝ)
    pure (a ++ b)
  -- TransformationExpressionNode.cpp:114
  | _, .trConst _, _ => pure []
  -- TransformationExpressionNode.cpp:68-72
  | _, .trMul id l r, M => do
    let s ← load id
    let b ← jac x r (k := .tr) (M * boxTimes s.T1 : Matrix (Fin m) (Fin 6) ℝ)
    let a ← jac x l M
    pure (b ++ a)
  -- TransformationExpressionNode.cpp:98-101
  | _, .trInv id e, M => do
    let s ← load id
    jac x e (k := .tr) (M * -boxTimes s.T1 : Matrix (Fin m) (Fin 6) ℝ)
  -- MatrixBasic.cpp:69-76
  | _, .matDv i cells, M =>
    if cells.length ≠ 0 then pure [⟨.mat i cells, (M * matB cells : Matrix (Fin m) (Fin cells.length) ℝ)⟩]
    else pure []
  | _, .leaf L, M => pure ((L.blocks x.vecs).map fun b => ⟨b.1, M * b.2⟩)

/-- `evaluateJacobians(outJacobians)`, without a chain rule matrix: the container has as many rows as the value
has dimensions.  `MatrixBasic` has such a method (MatrixBasic.cpp:59-66, "will not be used") that adds a 3x3
identity; no node calls it and it is left out (`hk`). -/
noncomputable def jac0 (x : State) : {k : Kind} → Expr k → k ≠ .mat → W (List (Block (tdim k)))
  -- RotationQuaternion.cpp:48-51
  | _, .rotDv i, _ => pure [⟨.rot i, (1 : M3)⟩]
  -- RotationExpressionNode.cpp:48-52
  | _, .rotMul id l r, hk => do
    let s ← load id
    let b ← jac x r (k := .rot) s.C1
    let a ← jac0 x l hk
    pure (b ++ a)
  -- RotationExpressionNode.cpp:84-87
  | _, .rotInv id e, _ => do
    let s ← load id
    jac x e (k := .rot) (-s.C1ᵀ)
  -- RotationExpressionNode.cpp:115-119
  | _, .rotOfTr e, _ => jac x e (k := .tr) jRotOfTr
  -- EuclideanPoint.cpp:45-48
  | _, .eucDv i, _ => pure [⟨.euc i, (1 : M3)⟩]
  -- EuclideanDirection.cpp:60-67
  | _, .dirDv i, _ => pure [⟨.dir i, jDir (x.dir i)⟩]
  -- EuclideanExpressionNode.cpp:276-278
  | _, .eucConst _, _ => pure []
  -- EuclideanExpressionNode.cpp:76-80
  | _, .rotEuc id l r, _ => do
    let s ← load id
    let a ← jac x l (k := .rot) (crossMx (s.C1.mulVec s.p))
    let s ← load id
    let b ← jac x r (k := .euc) s.C1
    pure (a ++ b)
  -- EuclideanExpressionNode.cpp:120-126
  | _, .matEuc id l r, _ => do
    let s ← load id
    let a ← jac x l (k := .mat) (jFull s.p)
    let s ← load id
    let b ← jac x r (k := .euc) s.C1
    pure (a ++ b)
  -- EuclideanExpressionNode.cpp:164-168
  | _, .cross l r, _ => do
    let v ← eval x r
    let a ← jac x l (k := .euc) (-crossMx v)
    let u ← eval x l
    let b ← jac x r (k := .euc) (crossMx u)
    pure (a ++ b)
  -- EuclideanExpressionNode.cpp:204-208
  | _, .add l r, hk => do
    let a ← jac0 x l hk
    let b ← jac0 x r hk
    pure (a ++ b)
  -- EuclideanExpressionNode.cpp:244-248
  | _, .sub l r, hk => do
    let a ← jac0 x l hk
    let b ← jac x r (k := .euc) (-(1 : M3))
    pure (a ++ b)
  -- EuclideanExpressionNode.cpp:307-310
  | _, .subVec l _, hk => jac0 x l hk
  -- EuclideanExpressionNode.cpp:339-342
  | _, .neg e, _ => jac x e (k := .euc) (-(1 : M3))
  -- EuclideanExpressionNode.cpp:372-376
  | _, .smul p s, _ => do
    let v ← eval x s
    let a ← jac x p (k := .euc) ((v : ℝ) • (1 : M3))
    let u ← eval x p
    let b ← jac x s (k := .sca) (col3 u)
    pure (a ++ b)
  -- EuclideanExpressionNode.cpp:537-541
  | _, .cwise l r, _ => do
    let v ← eval x r
    let a ← jac x l (k := .euc) (Matrix.diagonal v)
    let u ← eval x l
    let b ← jac x r (k := .euc) (Matrix.diagonal u)
    pure (a ++ b)
  -- EuclideanExpressionNode.cpp:430-435
  | _, .transl e, _ => do
    let T ← eval x e
    jac x e (k := .tr) (jTransl (transform2rho T))
  -- EuclideanExpressionNode.cpp:464-469
  | _, .rotParams rk e, _ => do
    let C ← eval x e
    jac x e (k := .rot) ((rk.S (rk.ofR C))⁻¹)
  -- EuclideanExpressionNode.cpp:495-500
  | _, .ofHom e, _ => do
    let v ← eval x e
    jac x e (k := .hom) (fromHomogeneousJacobian v)
  -- Scalar.cpp:42-47
  | _, .scaDv i, _ => pure [⟨.sca i, mx1 1⟩]
  -- ScalarExpressionNode.hpp, the constant
  | _, .scaConst _, _ => pure []
  -- ScalarExpressionNode.cpp:62-69
  | _, .scaMul l r, _ => do
    let u ← eval x l
    let v ← eval x r
    let a ← jac x l (k := .sca) (mx1 v)
    let b ← jac x r (k := .sca) (mx1 u)
    pure (a ++ b)
  -- ScalarExpressionNode.cpp:102-109
  | _, .scaDiv l r, _ => do
    let v ← eval x r
    let u ← eval x l
    let v' ← eval x r
    let v'' ← eval x r
    let a ← jac x l (k := .sca) (mx1 (1 / (v : ℝ)))
    let b ← jac x r (k := .sca) (mx1 (-(u : ℝ) / (v' * v'')))
    pure (a ++ b)
  -- ScalarExpressionNode.cpp:145-151
  | _, .scaAdd l r t, hk => do
    let a ← jac0 x l hk
    let b ← jac x r (k := .sca) (mx1 t)
    pure (a ++ b)
  -- HomogeneousPoint.cpp:45-48
  | _, .homDv i, _ => pure [⟨.hom i, quatInvS (x.hom i).p⟩]
  -- HomogeneousExpressionNode.cpp:98
  | _, .homConst _, _ => pure []
  -- HomogeneousExpressionNode.cpp:71-75
  | _, .trHom id l r, _ => do
    let s ← load id
    let a ← jac x l (k := .tr) (boxMinus (s.T1.mulVec s.h))
    let s ← load id
    let b ← jac x r (k := .hom) s.T1
    pure (a ++ b)
  -- HomogeneousExpressionNode.cpp:117-119
  | _, .homOfEuc e, _ => jac x e (k := .euc) jHomOfEuc
  -- TransformationBasic.cpp:28-47
  | _, .trBasic C t, _ => do
    let r ← eval x t
    let a ← jac x C (k := .rot) (jBasicRot r)
    let b ← jac x t (k := .euc) jBasicTransl
    pure (a ++ b)
  -- TransformationExpressionNode.cpp:113
  | _, .trConst _, _ => pure []
  -- TransformationExpressionNode.cpp:61-65
  | _, .trMul id l r, hk => do
    let s ← load id
    let b ← jac x r (k := .tr) (boxTimes s.T1)
    let a ← jac0 x l hk
    pure (b ++ a)
  -- TransformationExpressionNode.cpp:92-95
  | _, .trInv id e, _ => do
    let s ← load id
    jac x e (k := .tr) (-boxTimes s.T1)
  | _, .matDv _ _, hk => absurd rfl hk
  | _, .leaf L, _ => pure (L.blocks x.vecs)

/-- `getDesignVariables`: the variables inserted into the set (the same variable may be inserted again). -/
def dvs : {k : Kind} → Expr k → List DV
  | _, .rotDv i => [.rot i]
  | _, .rotMul _ l r => dvs l ++ dvs r
  | _, .rotInv _ e => dvs e
  | _, .rotOfTr e => dvs e
  | _, .eucDv i => [.euc i]
  | _, .dirDv i => [.dir i]
  | _, .eucConst _ => []
  | _, .rotEuc _ l r => dvs l ++ dvs r
  | _, .matEuc _ l r => dvs l ++ dvs r
  | _, .cross l r => dvs l ++ dvs r
  | _, .add l r => dvs l ++ dvs r
  | _, .sub l r => dvs l ++ dvs r
  | _, .subVec l _ => dvs l
  | _, .neg e => dvs e
  | _, .smul p s => dvs p ++ dvs s
  | _, .cwise l r => dvs l ++ dvs r
  | _, .transl e => dvs e
  | _, .rotParams _ e => dvs e
  | _, .ofHom e => dvs e
  | _, .scaDv i => [.sca i]
  | _, .scaConst _ => []
  | _, .scaMul l r => dvs l ++ dvs r
  | _, .scaDiv l r => dvs l ++ dvs r
  | _, .scaAdd l r _ => dvs l ++ dvs r
  | _, .homDv i => [.hom i]
  | _, .homConst _ => []
  | _, .trHom _ l r => dvs l ++ dvs r
  | _, .homOfEuc e => dvs e
  | _, .trBasic C t => dvs C ++ dvs t
  | _, .trConst _ => []
  | _, .trMul _ l r => dvs l ++ dvs r
  | _, .trInv _ e => dvs e
  -- MatrixBasic.cpp:83-89
  | _, .matDv i cells => if cells.length ≠ 0 then [.mat i cells] else []
  | _, .leaf L => L.vars

end Kalibr.Exp
