import Verif.Common
import Verif.Expr.Leaves

/-!
# Model of the generic matrix expressions and the quaternion expressions

Sources, all in `aslam_optimizer/aslam_backend_expressions/include/aslam_backend_expressions`: `Differential.hpp` (cited as `Df`),
`GenericMatrixExpression.hpp` (cited as `Gm`) and `implementation/GenericMatrixExpression.hpp` (cited as `Gi`), `GenericMatrixExpressionNode.hpp`
(cited as `Gn`), `implementation/QuaternionExpression.hpp` (cited as `Qi`), `QuaternionExpression.hpp` (cited as `Qe`),
`DesignVariableGenericVector.hpp` (cited as `Dg`), `DesignVariableUnitQuaternion.hpp` (cited as `Du`), `BasisMatrixFunctor.hpp` (cited as `Bm`),
`implementation/VectorExpressionNode.hpp` (cited as `Vn`) and `implementation/DesignVariableVector.hpp` (cited as `Dv`); `expDiffMat` and
`quatExpJacobian` are from `Schweizer-Messer/sm_kinematics/src/quaternion_algebra.cpp` (cited as `Qa`).

Simplifications: numbers are real numbers; trees of nodes are trees (every evaluation computes the values again, Gn 44-52); the blocks that are added to the container
of Jacobians are a list (the container adds the blocks of a variable up, see `Verif/Jacobian`); vectors are functions and matrices of one column
functions of the row and the column.  `log` of a quaternion is not modelled.
In `dexp` the variable `J` is a product that refers to a matrix that is already destroyed (Qi 142); the model reads it as that matrix.
-/

namespace Kalibr.Gme

open Kalibr.Kin Matrix

abbrev Mat (r c : ℕ) := Matrix (Fin r) (Fin c) ℝ

/-- The column of a matrix. -/
def vecOf {n : ℕ} (M : Mat n 1) : Fin n → ℝ := fun i => M i 0

/-- The matrix with the vector in its columns. -/
def colOf {n : ℕ} (c : ℕ) (v : Fin n → ℝ) : Mat n c := fun i _ => v i

/-! ## Quaternions -/

/-- `QuaternionMode`, Qe 19-24 and 32-45. -/
structure Mode where
  realFirst : Bool
  traditional : Bool
  deriving DecidableEq

/-- `UnitQuaternionGeometry`, Qe 26-29. -/
inductive Geo
  | left
  | right
  deriving DecidableEq

/-- `RIndex` and so on, Qi 18-29. -/
def Mode.rI (m : Mode) : Fin 4 := if m.realFirst then 0 else 3
def Mode.iI (m : Mode) : Fin 4 := if m.realFirst then 1 else 0
def Mode.jI (m : Mode) : Fin 4 := if m.realFirst then 2 else 1
def Mode.kI (m : Mode) : Fin 4 := if m.realFirst then 3 else 2

/-- The vector of components that are given by name. -/
def Mode.put (m : Mode) (i j k r : ℝ) : V4 := if m.realFirst then ![r, i, j, k] else ![i, j, k, r]

/-- `quatMultTraditional` of two quaternions, Qi 51-63. -/
def multQQ (m : Mode) (a b : V4) : V4 :=
  m.put (a m.iI * b m.rI + a m.jI * b m.kI - a m.kI * b m.jI + a m.rI * b m.iI)
    (a m.kI * b m.iI - a m.iI * b m.kI + a m.jI * b m.rI + a m.rI * b m.jI)
    (a m.iI * b m.jI - a m.jI * b m.iI + a m.kI * b m.rI + a m.rI * b m.kI)
    (a m.rI * b m.rI - a m.jI * b m.jI - a m.kI * b m.kI - a m.iI * b m.iI)

/-- `quatMultTraditional` of a vector and a quaternion, Qi 65-72. -/
def multVQ (m : Mode) (a : V3) (b : V4) : V4 :=
  m.put (a 0 * b m.rI + a 1 * b m.kI - a 2 * b m.jI) (a 2 * b m.iI - a 0 * b m.kI + a 1 * b m.rI) (a 0 * b m.jI - a 1 * b m.iI + a 2 * b m.rI)
    (-a 1 * b m.jI - a 2 * b m.kI - a 0 * b m.iI)

/-- `quatMultTraditional` of a quaternion and a vector, Qi 74-81. -/
def multQV (m : Mode) (a : V4) (b : V3) : V4 :=
  m.put (a m.jI * b 2 - a m.kI * b 1 + a m.rI * b 0) (a m.kI * b 0 - a m.iI * b 2 + a m.rI * b 1) (a m.iI * b 1 - a m.jI * b 0 + a m.rI * b 2)
    (-a m.jI * b 1 - a m.kI * b 2 - a m.iI * b 0)

/-- `quatMult`, Qi 83-86, of two quaternions. -/
def quatMult (m : Mode) (a b : V4) : V4 := if m.traditional then multQQ m a b else multQQ m b a

/-- `quatMult`, Qi 83-86, of a quaternion and a vector. -/
def quatMultV (m : Mode) (a : V4) (b : V3) : V4 := if m.traditional then multQV m a b else multVQ m b a

/-- `conjugate`, Qi 88-92. -/
def conjugate (m : Mode) (v : V4) : V4 := m.put (-v m.iI) (-v m.jI) (-v m.kI) (v m.rI)

/-- `v.dot(v)`. -/
def sqNorm (v : V4) : ℝ := v 0 * v 0 + v 1 * v 1 + v 2 * v 2 + v 3 * v 3

/-- `invert`, Qi 93-97. -/
noncomputable def invert (m : Mode) (v : V4) : V4 := (1 / sqNorm (conjugate m v)) • conjugate m v

/-- `getImagPart`, Qi 99-101. -/
def imagPart (m : Mode) (v : V4) : V3 := ![v m.iI, v m.jI, v m.kI]

/-- `convertToOtherMode` from the mode to one with the real part last, Qi 151-162. -/
def toLast (m : Mode) (v : V4) : V4 := ![v m.iI, v m.jI, v m.kI, v m.rI]

/-- `convertFromOtherMode` from one with the real part last, Qi 164-167. -/
def fromLast (m : Mode) (v : V4) : V4 := m.put (v 0) (v 1) (v 2) (v 3)

/-- The same for the rows of a matrix. -/
def fromLastM (m : Mode) (M : Mat 4 3) : Mat 4 3 := fun i j => fromLast m (fun a => M a j) i

/-- `exp`, Qi 117-119. -/
noncomputable def qexp (m : Mode) (v : V3) : V4 := fromLast m (axisAngle2quat ((2 : ℝ) • v))

open Classical in
/-- `expDiffMat`, Qa 467-493. -/
noncomputable def expDiffMat (v : V3) : M3 :=
  let phi := norm3 v
  if phi = 0 then 1
  else
    let X := crossMx v
    let a := if phi < eps4 then 1 / 2 * (1 - 1 / 12 * (phi * phi)) else 2 * Real.sin (phi / 2) * Real.sin (phi / 2) / (phi * phi)
    let b := if phi < eps4 then 1 / 6 * (1 - 1 / 20 * (phi * phi)) else (1 - Real.sin phi / phi) / (phi * phi)
    1 - a • X + b • (X * X)

/-- `quatV`, Qa 458-462. -/
noncomputable def quatV : Mat 4 3 := fun i j => if i.val = j.val then 1 / 2 else 0

/-- `quatExpJacobian`, Qa 497-500. -/
noncomputable def quatExpJacobian (v : V3) : Mat 4 3 := quatOPlus (axisAngle2quat v) * quatV * expDiffMat v

/-- `dexp`, Qi 141-149. -/
noncomputable def dexp (m : Mode) (v : V3) : Mat 4 3 := fromLastM m ((2 : ℝ) • quatExpJacobian ((2 : ℝ) • v))

/-- `update`, Qi 121-129. -/
noncomputable def updateQ (m : Mode) (g : Geo) (p : V4) (v : V3) : V4 :=
  match g with
  | .left => quatMult m p (qexp m v)
  | .right => quatMult m (qexp m v) p

/-- `dUpdate`, Qi 131-139. -/
def dUpdate (m : Mode) (g : Geo) (p : V4) : Mat 4 3 :=
  fromLastM m (fun i j => (if m.traditional ≠ decide (g = .right) then quatOPlus (toLast m p) else quatPlus (toLast m p)) i j.castSucc)

/-! ## Variables and their values -/

/-- The design variables: `DesignVariableGenericVector`, `DesignVariableUnitQuaternion`, and `DesignVariableVector` as a vector expression. -/
inductive DV
  | gen (id n : ℕ)
  | quat (id : ℕ) (m : Mode) (g : Geo)
  | vec (id n : ℕ)
  deriving DecidableEq

/-- `minimalDimensions()`, Dg 46-48, Du 37-39, Dv 49-53. -/
@[reducible] def DV.dim : DV → ℕ
  | .gen _ n => n
  | .quat _ _ _ => 3
  | .vec _ n => n

/-- The number of components. -/
@[reducible] def DV.size : DV → ℕ
  | .gen _ n => n
  | .quat _ _ _ => 4
  | .vec _ n => n

/-- The values of all design variables. -/
abbrev St := (d : DV) → Fin d.size → ℝ

/-- A step for every design variable. -/
abbrev Incr := (d : DV) → Fin d.dim → ℝ

/-- `update` of all design variables, Dg 40-44, Du 31-35, Dv 38-46. -/
noncomputable def upd (x : St) (δ : Incr) : St
  | .gen id n => x (.gen id n) + δ (.gen id n)
  | .quat id m g => updateQ m g (x (.quat id m g)) (δ (.quat id m g))
  | .vec id n => x (.vec id n) + δ (.vec id n)

/-! ## Expressions -/

/-- The trees of nodes. -/
inductive GE : ℕ → ℕ → Type
  /-- `ConstantGenericMatrixExpressionNode` -/
  | const {r c : ℕ} (M : Mat r c) : GE r c
  /-- `DesignVariableGenericVector` -/
  | gen (id n : ℕ) : GE n 1
  /-- `DesignVariableUnitQuaternion` -/
  | quat (id : ℕ) (m : Mode) (g : Geo) : GE 4 1
  /-- a vector expression made generic with `convertToGME`, for a `DesignVariableVector` -/
  | vec (id n : ℕ) : GE n 1
  /-- the conversion to the default node -/
  | same {r c : ℕ} (e : GE r c) : GE r c
  | transpose {r c : ℕ} (e : GE r c) : GE c r
  | inverse {n : ℕ} (e : GE n n) : GE n n
  | mul {r k c : ℕ} (a : GE r k) (b : GE k c) : GE r c
  | add {r c : ℕ} (a b : GE r c) : GE r c
  | sub {r c : ℕ} (a b : GE r c) : GE r c
  | neg {r c : ℕ} (e : GE r c) : GE r c
  | scale {r c : ℕ} (e : GE r c) (s : ℝ) : GE r c
  /-- `cross` of a vector and columns -/
  | crossL {c : ℕ} (a : GE 3 1) (b : GE 3 c) : GE 3 c
  /-- `cross` of columns and a vector -/
  | crossR {c : ℕ} (a : GE 3 c) (b : GE 3 1) : GE 3 c
  | qmul (m : Mode) (a b : GE 4 1) : GE 4 1
  | qinv (m : Mode) (e : GE 4 1) : GE 4 1
  | qconj (m : Mode) (e : GE 4 1) : GE 4 1
  | imag (m : Mode) (e : GE 4 1) : GE 3 1
  | rotate (m : Mode) (q : GE 4 1) (v : GE 3 1) : GE 3 1
  | exp (m : Mode) (v : GE 3 1) : GE 4 1

/-- `calcCrossInto` for a vector on the left, Gi 272-279. -/
def crossCols {c : ℕ} (a : Mat 3 1) (b : Mat 3 c) : Mat 3 c := fun i j => crossProduct (vecOf a) (fun k => b k j) i

/-- `calcCrossInto` for a vector on the right, Gi 264-271. -/
def colsCross {c : ℕ} (a : Mat 3 c) (b : Mat 3 1) : Mat 3 c := fun i j => crossProduct (fun k => a k j) (vecOf b) i

/-- The rotated vector, Qi 295-298. -/
def rotateBy (m : Mode) (q : V4) (v : V3) : V3 := imagPart m (quatMult m (quatMultV m q v) (conjugate m q))

/-- `evaluate`: Gi 66-68, 86-88, 109-111, 133-135, 159-161, 186-188, 211-213, 234-236, 303-305; Qi 189-191, 217-219, 237-239, 260-262, 295-298,
343-345; Dg 67-68; Dv 56-60. -/
noncomputable def eval (x : St) : {r c : ℕ} → GE r c → Mat r c
  | _, _, .const M => M
  | _, _, .gen id n => colOf 1 (x (.gen id n))
  | _, _, .quat id m g => colOf 1 (x (.quat id m g))
  | _, _, .vec id n => colOf 1 (x (.vec id n))
  | _, _, .same e => eval x e
  | _, _, .transpose e => (eval x e)ᵀ
  | _, _, .inverse e => (eval x e)⁻¹
  | _, _, .mul a b => eval x a * eval x b
  | _, _, .add a b => eval x a + eval x b
  | _, _, .sub a b => eval x a - eval x b
  | _, _, .neg e => -eval x e
  | _, _, .scale e s => s • eval x e
  | _, _, .crossL a b => crossCols (eval x a) (eval x b)
  | _, _, .crossR a b => colsCross (eval x a) (eval x b)
  | _, _, .qmul m a b => colOf 1 (quatMult m (vecOf (eval x a)) (vecOf (eval x b)))
  | _, _, .qinv m e => colOf 1 (invert m (vecOf (eval x e)))
  | _, _, .qconj m e => colOf 1 (conjugate m (vecOf (eval x e)))
  | _, _, .imag m e => colOf 1 (imagPart m (vecOf (eval x e)))
  | _, _, .rotate m q v => colOf 1 (rotateBy m (vecOf (eval x q)) (vecOf (eval x v)))
  | _, _, .exp m v => colOf 1 (qexp m (vecOf (eval x v)))

/-! ## Differentials -/

/-- An object of a class derived from `Differential`, Df 8-36: what `applyInto` gives, what is added for a variable with the dimension of the domain
without and with a Jacobian, and what `convertIntoMatrix` gives (nothing if the number of rows is another one: the container of Jacobians refuses
it).  Only domains with one column meet variables. -/
structure Diff (R r c : ℕ) where
  applyInto : Mat r c → (Fin R → ℝ)
  addTo : Mat R r
  addToWith : {k : ℕ} → Mat r k → Mat R k
  convert : Option (Mat R r)

/-- `IdentityDifferential`, Df 64-92. -/
def Diff.identity (r : ℕ) : Diff r r 1 where
  applyInto t := vecOf t
  addTo := 1
  addToWith J := J
  convert := some 1

/-- `MatrixDifferential`, Df 230-265. -/
def Diff.matrix {R r : ℕ} (A : Mat R r) : Diff R r 1 where
  applyInto t := A.mulVec (vecOf t)
  addTo := A
  addToWith J := A * J
  convert := some A

/-- `getDomainBasisVectorByIndex`, Df 19-22, with the functor Bm 29-31. -/
def basisMat (r c : ℕ) (i : Fin r) : Mat r c := fun a b => if a.val = i.val % r ∧ b.val = i.val / r then 1 else 0

/-- `ComposedDifferential`, Df 165-228: `applyBasisVectorInto`, `applyInto`, `addToJacobianByApplication`, `compose` (a
`ComposedMatrixDifferential` whose columns are applied) and `calcJacobianByApplication`, Df 116-141. -/
def Diff.composed {R r c r' c' : ℕ} (f : Mat r c → Mat r' c') (next : Diff R r' c') : Diff R r c where
  applyInto t := next.applyInto (f t)
  addTo := fun ρ i => next.applyInto (f (basisMat r c i)) ρ
  addToWith J := fun ρ j => next.applyInto (f (colOf c fun a => J a j)) ρ
  convert := some fun ρ i => next.applyInto (f (basisMat r c i)) ρ

/-- `ComposedMatrixDifferential`, Df 267-306: `convertIntoMatrix` gives the matrix without the next differential. -/
def Diff.composedMatrix {R r r' c' : ℕ} (M : Mat r' r) (next : Diff R r' c') : Diff R r 1 where
  applyInto t := next.applyInto (colOf c' (M.mulVec (vecOf t)))
  addTo := fun ρ i => next.applyInto (colOf c' fun a => M a i) ρ
  addToWith J := fun ρ j => next.applyInto (colOf c' fun a => (M * J) a j) ρ
  convert := if h : r' = R then some (h ▸ M) else none

/-- What is added to the container of Jacobians. -/
abbrev Block (R : ℕ) := (d : DV) × Mat R d.dim

/-- Two additions. -/
def both {R : ℕ} (a b : Out (List (Block R))) : Out (List (Block R)) := a.bind fun l => b.bind fun k => .ok (l ++ k)

/-- `evaluateJacobians(outJacobians, differential)`: the unary and binary results of operations Gm 144-146 and 208-211 with the functions `applyDiff`,
`applyLhsDiff` and `applyRhsDiff` of Gi and Qi, the constants Gn 103-104, the design variables Dg 63-65 and Du 41-45, vector expressions Vn 39-44 with
Dv 69-74 and the exponential map Qi 338-341. -/
noncomputable def jac (x : St) {R : ℕ} : {r c : ℕ} → GE r c → Diff R r c → Out (List (Block R))
  | _, _, .const _, _ => .ok []
  | _, _, .gen id n, D => .ok [⟨.gen id n, D.addTo⟩]
  | _, _, .quat id m g, D => if g = .right then .ok [⟨.quat id m g, D.addToWith (dUpdate m g (x (.quat id m g)))⟩] else .ok []
  | _, _, .vec id n, D => match D.convert with
    | some A => .ok [⟨.vec id n, A⟩]
    | none => .raise
  | _, _, .same e, D => jac x e (.composed (fun t => t) D)
  | _, _, .transpose e, D => jac x e (.composed (fun t => tᵀ) D)
  | _, _, .inverse e, D => jac x e (.composed (fun t => -(eval x e)⁻¹ * t * (eval x e)⁻¹) D)
  | _, _, .mul a b, D => both (jac x a (.composed (fun t => t * eval x b) D)) (jac x b (.composed (fun t => eval x a * t) D))
  | _, _, .add a b, D => both (jac x a (.composed (fun t => t) D)) (jac x b (.composed (fun t => t) D))
  | _, _, .sub a b, D => both (jac x a (.composed (fun t => t) D)) (jac x b (.composed (fun t => -t) D))
  | _, _, .neg e, D => jac x e (.composed (fun t => -t) D)
  | _, _, .scale e s, D => jac x e (.composed (fun t => s • t) D)
  | _, _, .crossL a b, D =>
    both (jac x a (.composed (fun t => crossCols t (eval x b)) D)) (jac x b (.composed (fun t => crossCols (eval x a) t) D))
  | _, _, .crossR a b, D =>
    both (jac x a (.composed (fun t => colsCross t (eval x b)) D)) (jac x b (.composed (fun t => colsCross (eval x a) t) D))
  | _, _, .qmul m a b, D =>
    both (jac x a (.composed (fun t => colOf 1 (quatMult m (vecOf t) (vecOf (eval x b)))) D))
      (jac x b (.composed (fun t => colOf 1 (quatMult m (vecOf (eval x a)) (vecOf t))) D))
  | _, _, .qinv m e, D =>
    let c := conjugate m (vecOf (eval x e))
    jac x e (.composed (fun t => colOf 1 ((1 / (sqNorm c * sqNorm c)) • -quatMult m c (quatMult m (vecOf t) c))) D)
  | _, _, .qconj m e, D => jac x e (.composed (fun t => colOf 1 (conjugate m (vecOf t))) D)
  | _, _, .imag m e, D => jac x e (.composed (fun t => colOf 1 (imagPart m (vecOf t))) D)
  | _, _, .rotate m q v, D =>
    let a := vecOf (eval x q)
    let b := vecOf (eval x v)
    both (jac x q (.composed (fun t => colOf 1 (imagPart m (quatMult m (quatMultV m a b) (conjugate m (vecOf t)) +
        quatMult m (quatMultV m (vecOf t) b) (conjugate m a)))) D))
      (jac x v (.composed (fun t => colOf 1 (imagPart m (quatMult m (quatMultV m a (vecOf t)) (conjugate m a)))) D))
  | _, _, .exp m v, D => jac x v (.composedMatrix (dexp m (vecOf (eval x v))) D)

/-- `evaluateJacobians(outJacobians)`, Gi 33-37. -/
noncomputable def jacobians (x : St) {r : ℕ} (e : GE r 1) : Out (List (Block r)) := jac x e (.identity r)

/-- `evaluateJacobians(outJacobians, applyChainRule)`, Gi 39-43. -/
noncomputable def jacobiansChain (x : St) {R r : ℕ} (e : GE r 1) (A : Mat R r) : Out (List (Block R)) := jac x e (.matrix A)

/-- `getDesignVariables`, Gm 141-143 and 204-207, Gn 105-106, Dg 59-61, Dv 76-80. -/
def vars : {r c : ℕ} → GE r c → List DV
  | _, _, .const _ => []
  | _, _, .gen id n => [.gen id n]
  | _, _, .quat id m g => [.quat id m g]
  | _, _, .vec id n => [.vec id n]
  | _, _, .same e => vars e
  | _, _, .transpose e => vars e
  | _, _, .inverse e => vars e
  | _, _, .mul a b => vars a ++ vars b
  | _, _, .add a b => vars a ++ vars b
  | _, _, .sub a b => vars a ++ vars b
  | _, _, .neg e => vars e
  | _, _, .scale e _ => vars e
  | _, _, .crossL a b => vars a ++ vars b
  | _, _, .crossR a b => vars a ++ vars b
  | _, _, .qmul _ a b => vars a ++ vars b
  | _, _, .qinv _ e => vars e
  | _, _, .qconj _ e => vars e
  | _, _, .imag _ e => vars e
  | _, _, .rotate _ q v => vars q ++ vars v
  | _, _, .exp _ v => vars v

/-! ## Specification -/

/-- The change of a vector with the Jacobians that were collected, for a step of all variables. -/
noncomputable def change {R : ℕ} (l : List (Block R)) (δ : Incr) : Fin R → ℝ := (l.map fun b => b.2.mulVec (δ b.1)).sum

/-- The value does not change at a point where the expression has no derivative or where it is computed with a series. -/
def Regular (x : St) : {r c : ℕ} → GE r c → Prop
  | _, _, .const _ => True
  | _, _, .gen _ _ => True
  | _, _, .quat _ _ _ => True
  | _, _, .vec _ _ => True
  | _, _, .same e => Regular x e
  | _, _, .transpose e => Regular x e
  | _, _, .inverse e => Regular x e ∧ IsUnit (eval x e)
  | _, _, .mul a b => Regular x a ∧ Regular x b
  | _, _, .add a b => Regular x a ∧ Regular x b
  | _, _, .sub a b => Regular x a ∧ Regular x b
  | _, _, .neg e => Regular x e
  | _, _, .scale e _ => Regular x e
  | _, _, .crossL a b => Regular x a ∧ Regular x b
  | _, _, .crossR a b => Regular x a ∧ Regular x b
  | _, _, .qmul _ a b => Regular x a ∧ Regular x b
  | _, _, .qinv _ e => Regular x e ∧ vecOf (eval x e) ≠ 0
  | _, _, .qconj _ e => Regular x e
  | _, _, .imag _ e => Regular x e
  | _, _, .rotate _ q v => Regular x q ∧ Regular x v
  | _, _, .exp _ v => Regular x v ∧ eps4 < norm3 ((2 : ℝ) • vecOf (eval x v))

/-- The expression is not a vector expression made generic. -/
def NotVec : {r c : ℕ} → GE r c → Prop
  | _, _, .vec _ _ => False
  | _, _, _ => True

/-- All unit quaternions are updated from one side, the right translated ones, and no exponential map is applied directly to a vector expression. -/
def Supported : {r c : ℕ} → GE r c → Prop
  | _, _, .const _ => True
  | _, _, .gen _ _ => True
  | _, _, .quat _ _ g => g = .right
  | _, _, .vec _ _ => True
  | _, _, .same e => Supported e
  | _, _, .transpose e => Supported e
  | _, _, .inverse e => Supported e
  | _, _, .mul a b => Supported a ∧ Supported b
  | _, _, .add a b => Supported a ∧ Supported b
  | _, _, .sub a b => Supported a ∧ Supported b
  | _, _, .neg e => Supported e
  | _, _, .scale e _ => Supported e
  | _, _, .crossL a b => Supported a ∧ Supported b
  | _, _, .crossR a b => Supported a ∧ Supported b
  | _, _, .qmul _ a b => Supported a ∧ Supported b
  | _, _, .qinv _ e => Supported e
  | _, _, .qconj _ e => Supported e
  | _, _, .imag _ e => Supported e
  | _, _, .rotate _ q v => Supported q ∧ Supported v
  | _, _, .exp _ v => Supported v ∧ NotVec v

end Kalibr.Gme
