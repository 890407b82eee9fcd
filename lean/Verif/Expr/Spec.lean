import Verif.Expr.Model
import Verif.Kinematics.EulerProps

/-!
# What the Jacobian of an expression means

The specification of the Jacobians, independent of the tree of nodes: how fast a value moves along a curve, in
the units of the library.
-/

namespace Kalibr.Exp

open Kalibr.Kin Matrix

/-- Specification: the motion of a rigid transformation.  A point `v` in homogeneous coordinates is taken to
`y = T v`, and moves with the velocity `ρ` and the angular velocity `ω` (with the sign of the library, see
`AngularVelocity`): its first three coordinates change by `y₃ ρ - ω × (y₀, y₁, y₂)`, its last one is constant.
`ξ` is `ρ` followed by `ω`. -/
def TwistVelocity (T : ℝ → M4) (ξ : Fin 6 → ℝ) : Prop :=
  ∀ v : V4, HasDerivAt (fun s => (T s).mulVec v)
    ![(T 0).mulVec v 3 * ξ 0 - (ξ 4 * (T 0).mulVec v 2 - ξ 5 * (T 0).mulVec v 1),
      (T 0).mulVec v 3 * ξ 1 - (ξ 5 * (T 0).mulVec v 0 - ξ 3 * (T 0).mulVec v 2),
      (T 0).mulVec v 3 * ξ 2 - (ξ 3 * (T 0).mulVec v 1 - ξ 4 * (T 0).mulVec v 0),
      0] 0

/-- Specification: at time zero the value moves with the velocity `ξ`. -/
def Moves : (k : Kind) → (ℝ → Val k) → (Fin (tdim k) → ℝ) → Prop
  | .rot, f, ξ => AngularVelocity f ξ 0
  | .euc, f, ξ => HasDerivAt f ξ 0
  | .sca, f, ξ => HasDerivAt f (ξ 0) 0
  | .hom, f, ξ => HasDerivAt f ξ 0
  | .tr, f, ξ => TwistVelocity f ξ
  | .mat, f, ξ => ∀ i j : Fin 3, HasDerivAt (fun s => f s i j) (ξ (⟨3 * j + i, by omega⟩ : Fin 9)) 0

/-- Specification: what the blocks handed to the container say about an increment: the sum of block times
increment of its design variable. -/
def lin {m : ℕ} (bs : List (Block m)) (δ : Incr) : Fin m → ℝ :=
  (bs.map fun b => b.2.mulVec (δ b.1)).sum

/-- Specification: the state after every design variable was updated by `s` times the increment. -/
noncomputable def along (x : State) (δ : Incr) (s : ℝ) : State := x.update fun d => s • δ d

/-! ## Shared nodes -/

/-- Specification: a leaf reports what it depends on.  Its value is a function of the vectors among the variables it
reports, and these are the variables it adds blocks for. -/
def Leaf.Honest {k : Kind} (L : Leaf k) : Prop :=
  (∀ a b : Vecs, (∀ i n, DV.vec i n ∈ L.vars → a i n = b i n) → L.value a = L.value b) ∧
  ∀ (a : Vecs) (d : DV), d ∈ (L.blocks a).map Sigma.fst ↔ d ∈ L.vars

/-- Specification: addresses identify nodes.  Every caching node of the tree is the node `f` has at its
address; and leaves report what they depend on. -/
def WF (f : ℕ → (k : Kind) × Expr k) : {k : Kind} → Expr k → Prop
  | _, .rotMul id l r => f id = ⟨_, .rotMul id l r⟩ ∧ WF f l ∧ WF f r
  | _, .rotInv id e => f id = ⟨_, .rotInv id e⟩ ∧ WF f e
  | _, .rotOfTr e => WF f e
  | _, .rotEuc id l r => f id = ⟨_, .rotEuc id l r⟩ ∧ WF f l ∧ WF f r
  | _, .matEuc id l r => f id = ⟨_, .matEuc id l r⟩ ∧ WF f l ∧ WF f r
  | _, .cross l r => WF f l ∧ WF f r
  | _, .add l r => WF f l ∧ WF f r
  | _, .sub l r => WF f l ∧ WF f r
  | _, .subVec l _ => WF f l
  | _, .neg e => WF f e
  | _, .smul p s => WF f p ∧ WF f s
  | _, .cwise l r => WF f l ∧ WF f r
  | _, .transl e => WF f e
  | _, .rotParams _ e => WF f e
  | _, .ofHom e => WF f e
  | _, .scaMul l r => WF f l ∧ WF f r
  | _, .scaDiv l r => WF f l ∧ WF f r
  | _, .scaAdd l r _ => WF f l ∧ WF f r
  | _, .trHom id l r => f id = ⟨_, .trHom id l r⟩ ∧ WF f l ∧ WF f r
  | _, .homOfEuc e => WF f e
  | _, .trBasic C t => WF f C ∧ WF f t
  | _, .trMul id l r => f id = ⟨_, .trMul id l r⟩ ∧ WF f l ∧ WF f r
  | _, .trInv id e => f id = ⟨_, .trInv id e⟩ ∧ WF f e
  | _, .leaf L => L.Honest
  | _, _ => True

/-- Specification: what may happen to the members of the nodes while the design variables stay as they are: any
number of evaluations and Jacobians of expressions of the same nodes. -/
inductive Steps (f : ℕ → (k : Kind) × Expr k) (x : State) : Cache → Cache → Prop
  | refl (c : Cache) : Steps f x c c
  | eval {c c' : Cache} {k : Kind} (e : Expr k) (h : WF f e) (hs : Steps f x c c') :
      Steps f x c (eval x e c').2
  | jac {c c' : Cache} {k : Kind} {m : ℕ} (e : Expr k) (M : Chain m k) (h : WF f e) (hs : Steps f x c c') :
      Steps f x c (jac x e M c').2
  | jac0 {c c' : Cache} {k : Kind} (e : Expr k) (hk : k ≠ .mat) (h : WF f e) (hs : Steps f x c c') :
      Steps f x c (jac0 x e hk c').2

/-! ## Regular points -/

/-- Specification: the value of an expression, without members: ordinary arithmetic. -/
noncomputable def val (x : State) : {k : Kind} → Expr k → Val k
  | _, .rotDv i => (x.rot i).C
  | _, .rotMul _ l r => (val x l : M3) * (val x r : M3)
  | _, .rotInv _ e => (val x e : M3)ᵀ
  | _, .rotOfTr e => transform2C (val x e)
  | _, .eucDv i => (x.euc i).p
  | _, .dirDv i => fun j => (x.dir i).mag * (x.dir i).C j 2
  | _, .eucConst p => p
  | _, .rotEuc _ l r => Matrix.mulVec (val x l : M3) (val x r)
  | _, .matEuc _ l r => Matrix.mulVec (val x l : M3) (val x r)
  | _, .cross l r => (crossMx (val x l)).mulVec (val x r)
  | _, .add l r => fun j => (val x l : V3) j + (val x r : V3) j
  | _, .sub l r => fun j => (val x l : V3) j - (val x r : V3) j
  | _, .subVec l p => fun j => (val x l : V3) j - p j
  | _, .neg e => fun j => -(val x e : V3) j
  | _, .smul p s => fun j => (val x p : V3) j * (val x s : ℝ)
  | _, .cwise l r => fun j => (val x l : V3) j * (val x r : V3) j
  | _, .transl e => transform2rho (val x e)
  | _, .rotParams rk e => rk.ofR (val x e)
  | _, .ofHom e => fromHomogeneous (val x e)
  | _, .scaDv i => (x.sca i).p
  | _, .scaConst s => s
  | _, .scaMul l r => (val x l : ℝ) * (val x r : ℝ)
  | _, .scaDiv l r => (val x l : ℝ) / (val x r : ℝ)
  | _, .scaAdd l r m => (val x l : ℝ) + m * (val x r : ℝ)
  | _, .homDv i => (x.hom i).p
  | _, .homConst p => p
  | _, .trHom _ l r => Matrix.mulVec (val x l : M4) (val x r)
  | _, .homOfEuc e => toHomogeneous (val x e)
  | _, .trBasic C t => rt2Transform (val x C) (val x t)
  | _, .trConst T => T
  | _, .trMul _ l r => (val x l : M4) * (val x r : M4)
  | _, .trInv _ e => (val x e : M4)⁻¹
  | _, .matDv i cells => (x.mat i cells).A
  | _, .leaf L => L.value x.vecs

/-- Specification: the parameters of the rotational kinematics `rk` are differentiable at the rotation `C`, with
the inverse of the S matrix as derivative. -/
def RKRegular (rk : RK) (C : M3) : Prop :=
  ∀ (f : ℝ → M3) (ω : V3), f 0 = C → AngularVelocity f ω 0 →
    HasDerivAt (fun s => rk.ofR (f s)) ((rk.S (rk.ofR C))⁻¹.mulVec ω) 0

/-- Values of rotation expressions are rotations, values of transformation expressions are rigid. -/
def Shape : (k : Kind) → Val k → Prop
  | .rot, C => C ∈ SO3
  | .tr, T => Rigid T
  | _, _ => True

/-- Specification: the blocks of a leaf are its Jacobian, at the given values of the vectors: let every vector move
by `s` times an increment; the value then moves with the velocity the blocks announce. -/
def Leaf.Correct {k : Kind} (L : Leaf k) (a : Vecs) : Prop :=
  Shape k (L.value a) ∧
  ∀ δ : Incr, Moves k (fun s => L.value fun i n => a i n + s • δ (.vec i n)) (lin (L.blocks a) δ)

/-- Specification: the rotations are rotations, nothing is divided by zero, and the Jacobians of the leaves are
right. -/
def Regular (x : State) : {k : Kind} → Expr k → Prop
  | _, .rotDv i => Unit4 (x.rot i).q ∧ (x.rot i).C = quat2r (x.rot i).q
  | _, .rotMul _ l r => Regular x l ∧ Regular x r
  | _, .rotInv _ e => Regular x e
  | _, .rotOfTr e => Regular x e
  | _, .rotEuc _ l r => Regular x l ∧ Regular x r
  | _, .matEuc _ l r => Regular x l ∧ Regular x r
  | _, .cross l r => Regular x l ∧ Regular x r
  | _, .add l r => Regular x l ∧ Regular x r
  | _, .sub l r => Regular x l ∧ Regular x r
  | _, .subVec l _ => Regular x l
  | _, .neg e => Regular x e
  | _, .smul p s => Regular x p ∧ Regular x s
  | _, .cwise l r => Regular x l ∧ Regular x r
  | _, .transl e => Regular x e
  | _, .rotParams rk e => Regular x e ∧ RKRegular rk (val x e)
  | _, .ofHom e => Regular x e ∧ (val x e : V4) 3 ≠ 0
  | _, .scaMul l r => Regular x l ∧ Regular x r
  | _, .scaDiv l r => Regular x l ∧ Regular x r ∧ (val x r : ℝ) ≠ 0
  | _, .scaAdd l r _ => Regular x l ∧ Regular x r
  | _, .trHom _ l r => Regular x l ∧ Regular x r
  | _, .homOfEuc e => Regular x e
  | _, .trBasic C t => Regular x C ∧ Regular x t
  | _, .trConst T => Rigid T
  | _, .trMul _ l r => Regular x l ∧ Regular x r
  | _, .trInv _ e => Regular x e
  | _, .leaf L => L.Correct x.vecs
  | _, _ => True

end Kalibr.Exp
