import Verif.Expr.Jacs
import Verif.Kinematics.R2Quat
import Verif.Kinematics.Update

/-!
# Values, Jacobians and design variables of expressions
-/

namespace Kalibr.Exp

open Kalibr.Kin Matrix

/-! ## C93: Jacobians -/

/-- **C93** (Jacobian).  Once an expression was evaluated, however many evaluations and Jacobians of expressions
of the same nodes come after it, its Jacobian is the derivative of its value: let all design variables be
updated by `s` times an increment `δ`; the value then moves at `s = 0` with a velocity `ξ`, the blocks the
expression adds give `M ξ` for every chain rule matrix `M`, and `ξ` without one.  The moved value `eval (along x δ
s) e` may be computed with any members `cs s`. -/
theorem C93_jacobian (f : ℕ → (k : Kind) × Expr k) (x : State) {k : Kind} (e : Expr k) (hw : WF f e)
    (hr : Regular x e) (c₀ c₁ : Cache) (hs : Steps f x (eval x e c₀).2 c₁) (δ : Incr) :
    ∃ ξ : Fin (tdim k) → ℝ,
      (∀ cs : ℝ → Cache, Moves k (fun s => (eval (along x δ s) e (cs s)).1) ξ) ∧
      (∀ (m : ℕ) (M : Chain m k), lin (jac x e M c₁).1 δ = M.mulVec ξ) ∧
      ∀ hk : k ≠ .mat, lin (jac0 x e hk c₁).1 δ = ξ := by
  have hf : Fresh x c₁ e := ((evals (f := f) (x := x) e hw).fresh c₀).keep (steps_keep hs) e hw
  refine ⟨vel x δ e, fun cs => ?_, fun m M => (jacs e hw).lin M c₁ hf δ, fun hk => (jac0s e hk hw).2 c₁ hf δ⟩
  have h : (fun s => (eval (along x δ s) e (cs s)).1) = fun s => val (along x δ s) e := by
    funext s
    exact (evals (f := f) (x := along x δ s) e hw).val (cs s)
  rw [h]
  exact moves x δ e hr

/-- **C93** (value).  The value of an expression is the one of ordinary arithmetic, whatever the members of its
nodes hold; rotations are rotation matrices and transformations are rigid. -/
theorem C93_value (f : ℕ → (k : Kind) × Expr k) (x : State) {k : Kind} (e : Expr k) (hw : WF f e) (c : Cache) :
    (eval x e c).1 = val x e ∧ (Regular x e → Shape k (eval x e c).1) := by
  have h := (evals (f := f) (x := x) e hw).val c
  exact ⟨h, fun hr => h ▸ shape x e hr⟩

/-- A state for the examples: rotations by half a turn about the first axis, all points `(1, 2, 3)`, all scalars
two. -/
noncomputable def demo : State where
  rot _ := ⟨![1, 0, 0, 0], ![1, 0, 0, 0], quat2r ![1, 0, 0, 0]⟩
  euc _ := ⟨![1, 2, 3], ![0, 0, 0]⟩
  sca _ := ⟨2, 0⟩
  hom _ := ⟨![0, 0, 0, 1], 0⟩
  dir _ := ⟨2, 1, 1⟩
  mat _ _ := ⟨1, 1⟩
  vec _ _ := ⟨0, 0⟩

/-- The point `1` seen from the frame whose pose is the rotation `0` and the point `0`, by way of homogeneous
coordinates, divided by a scalar; the node 1 occurs twice. -/
def demoE : Expr .euc :=
  .smul (.add (.ofHom (.trHom 2 (.trInv 1 (.trBasic (.rotDv 0) (.eucDv 0))) (.homOfEuc (.eucDv 1))))
    (.transl (.trInv 1 (.trBasic (.rotDv 0) (.eucDv 0))))) (.scaDiv (.scaConst 1) (.scaDv 0))

def demoF : ℕ → (k : Kind) × Expr k
  | 1 => ⟨.tr, .trInv 1 (.trBasic (.rotDv 0) (.eucDv 0))⟩
  | 2 => ⟨.hom, .trHom 2 (.trInv 1 (.trBasic (.rotDv 0) (.eucDv 0))) (.homOfEuc (.eucDv 1))⟩
  | _ => ⟨.sca, .scaConst 0⟩

theorem demoE_wf : WF demoF demoE := by
  simp [WF, demoE, demoF]

/-- Witness for the hypotheses of `C93_jacobian`. -/
example : WF demoF demoE ∧ Regular demo demoE := by
  refine ⟨demoE_wf, ?_⟩
  have hu : Unit4 (![1, 0, 0, 0] : V4) := by simp [Unit4]
  have hq : quat2r ![1, 0, 0, 0] ∈ SO3 := C48_unit_gives_rotation _ hu
  have h1 : Regular demo (.trInv 1 (.trBasic (.rotDv 0) (.eucDv 0))) := by simp [Regular, demo, hu]
  refine ⟨⟨⟨⟨h1, trivial⟩, ?_⟩, h1⟩, trivial, trivial, ?_⟩
  · simp only [val, demo]
    rw [rt_inv hq]
    simp [rt2Transform, toHomogeneous, Matrix.mulVec, dotProduct, Fin.sum_univ_succ]
  · simp [val, demo]

/-- **C93** (without an evaluation).  The evaluation is needed: when a design variable changes between the
evaluation and the Jacobian, the Jacobian is not the derivative of the value at the new point.  A point is moved
from zero; the Jacobian of the rotated point with respect to the rotation is still zero. -/
theorem C93_stale_counterexample :
    ∃ (f : ℕ → (k : Kind) × Expr k) (e : Expr .euc) (x : State) (u δ : Incr) (c : Cache),
      WF f e ∧ Regular x e ∧ Regular (x.update u) e ∧
      ∃ ξ : V3, Moves .euc (fun s => (eval (along (x.update u) δ s) e c).1) ξ ∧
        lin (jac0 (x.update u) e (by simp) (eval x e c).2).1 δ ≠ ξ := by
  let e : Expr .euc := .rotEuc 0 (.rotDv 0) (.eucDv 0)
  let f : ℕ → (k : Kind) × Expr k := fun _ => ⟨.euc, e⟩
  let x : State := { demo with rot := fun _ => ⟨![0, 0, 0, 1], ![0, 0, 0, 1], quat2r ![0, 0, 0, 1]⟩,
                               euc := fun _ => ⟨0, 0⟩ }
  let u : Incr := fun d => match d with
    | .euc _ => ![1, 0, 0]
    | _ => 0
  let δ : Incr := fun d => match d with
    | .rot _ => ![0, 0, 1]
    | _ => 0
  let c : Cache := fun _ => ⟨0, 0, 0, 0, 0, 0⟩
  have hw : WF f e := ⟨rfl, trivial, trivial⟩
  have hu : Unit4 (![0, 0, 0, 1] : V4) := by simp [Unit4]
  have h1 : Regular x e := ⟨⟨hu, rfl⟩, trivial⟩
  have h2 : Regular (x.update u) e := by
    refine ⟨⟨?_, rfl⟩, trivial⟩
    show Unit4 (updateQuat ![0, 0, 0, 1] 0)
    rw [updateQuat_zero]; exact hu
  have hq : quat2r ![0, 0, 0, 1] = 1 := quat2r_identity
  obtain ⟨ξ, hm, -, hJ⟩ := C93_jacobian f (x.update u) e hw h2 c _ (.refl _) δ
  refine ⟨f, e, x, u, δ, c, hw, h1, h2, ξ, hm fun _ => c, ?_⟩
  rw [← hJ (by simp)]
  have hj (y : State) (c' : Cache) (hk) : lin (jac0 y e hk c').1 δ =
      (crossMx ((c' 0).C1.mulVec (c' 0).p)).mulVec (δ (.rot 0)) + (c' 0).C1.mulVec (δ (.euc 0)) := by
    simp only [jac0, jac, e, bind_apply, pure_apply, load]
    simp [lin]
  have hc (y : State) : ((eval y e c).2 0).C1 = (y.rot 0).C ∧ ((eval y e c).2 0).p = (y.euc 0).p := by
    simp only [eval, e, bind_apply, pure_apply, load, store]
    simp
  rw [hj, hj, (hc _).1, (hc _).1, (hc _).2, (hc _).2]
  have e1 : (x.rot 0).C = 1 := hq
  have e2 : ((x.update u).rot 0).C = 1 := by
    show quat2r (updateQuat ![0, 0, 0, 1] 0) = 1
    rw [updateQuat_zero, hq]
  have e3 : ((x.update u).euc 0).p = ![1, 0, 0] := by
    show (0 : V3) + ![1, 0, 0] = _
    rw [zero_add]
  have e4 : (x.euc 0).p = 0 := rfl
  have e5 : δ (.rot 0) = ![0, 0, 1] := rfl
  have e6 : δ (.euc 0) = 0 := rfl
  rw [e1, e2, e3, e4, e5, e6]
  intro h
  have := congrFun h 1
  simp [crossMx] at this

/-! ## C94: reported design variables -/

/-- Specification: two states give a design variable the same content. -/
def Agree (x y : State) : DV → Prop
  | .rot i => x.rot i = y.rot i
  | .euc i => x.euc i = y.euc i
  | .sca i => x.sca i = y.sca i
  | .hom i => x.hom i = y.hom i
  | .dir i => x.dir i = y.dir i
  | .mat i cells => x.mat i cells = y.mat i cells
  | .vec i n => x.vec i n = y.vec i n

theorem jac_dvs {f : ℕ → (k : Kind) × Expr k} (x : State) {k : Kind} (e : Expr k) (hw : WF f e) {m : ℕ}
    (M : Chain m k) (c : Cache) (d : DV) :
    d ∈ (jac x e M c).1.map Sigma.fst ↔ d ∈ dvs e := by
  induction e generalizing c with
  | matDv i cells =>
    simp only [jac, dvs]
    split_ifs <;> simp [pure_apply]
  | leaf L =>
    have := hw.2 x.vecs d
    simp only [jac, dvs, pure_apply, ← this, List.map_map]
    rfl
  | rotMul id l r hl hr =>
    simp only [jac, bind_apply, pure_apply, List.map_append, List.mem_append, hl hw.2.1, hr hw.2.2, dvs]; tauto
  | trMul id l r hl hr =>
    simp only [jac, bind_apply, pure_apply, List.map_append, List.mem_append, hl hw.2.1, hr hw.2.2, dvs]; tauto
  | _ =>
    simp only [WF] at hw
    simp only [jac, bind_apply, pure_apply, List.map_append, List.mem_append, List.map_cons, List.map_nil, dvs, *]

theorem jac0_dvs {f : ℕ → (k : Kind) × Expr k} (x : State) {k : Kind} (e : Expr k) (hw : WF f e) (hk : k ≠ .mat)
    (c : Cache) (d : DV) :
    d ∈ (jac0 x e hk c).1.map Sigma.fst ↔ d ∈ dvs e := by
  have key {k : Kind} (e : Expr k) (hw : WF f e) {m : ℕ} (M : Chain m k) (c : Cache) :
    d ∈ (jac x e M c).1.map Sigma.fst ↔ d ∈ dvs e := jac_dvs x e hw M c d
  induction e generalizing c with
  | matDv i cells => exact absurd rfl hk
  | leaf L => exact hw.2 x.vecs d
  | rotMul id l r hl hr =>
    simp only [jac0, bind_apply, pure_apply, List.map_append, List.mem_append, hl hw.2.1, key r hw.2.2, dvs]; tauto
  | trMul id l r hl hr =>
    simp only [jac0, bind_apply, pure_apply, List.map_append, List.mem_append, hl hw.2.1, key r hw.2.2, dvs]; tauto
  | _ =>
    simp only [WF] at hw
    simp only [jac0, bind_apply, pure_apply, List.map_append, List.mem_append, List.map_cons, List.map_nil, dvs,
      *]

/-- **C94** (sufficient).  The value of an expression depends on nothing but the design variables it reports, and
matrices without free entries. -/
theorem C94_sufficient (f : ℕ → (k : Kind) × Expr k) (x y : State) {k : Kind} (e : Expr k) (hw : WF f e)
    (h : ∀ d ∈ dvs e, Agree x y d) (h0 : ∀ i, (x.mat i []).A = (y.mat i []).A) (c c' : Cache) :
    (eval x e c).1 = (eval y e c').1 := by
  rw [(C93_value f x e hw c).1, (C93_value f y e hw c').1]
  induction e with
  | rotDv i => simp only [val]; rw [show x.rot i = y.rot i from h (.rot i) (by simp [dvs])]
  | eucDv i => simp only [val]; rw [show x.euc i = y.euc i from h (.euc i) (by simp [dvs])]
  | dirDv i => simp only [val]; rw [show x.dir i = y.dir i from h (.dir i) (by simp [dvs])]
  | scaDv i => simp only [val]; rw [show x.sca i = y.sca i from h (.sca i) (by simp [dvs])]
  | homDv i => simp only [val]; rw [show x.hom i = y.hom i from h (.hom i) (by simp [dvs])]
  | matDv i cells =>
    simp only [val]
    rcases cells with _ | ⟨a, l⟩
    · exact h0 i
    · rw [show x.mat i (a :: l) = y.mat i (a :: l) from h (.mat i (a :: l)) (by simp [dvs])]
  | leaf L =>
    simp only [val]
    exact hw.1 _ _ fun i n hi => congrArg VecDv.v (h (.vec i n) hi)
  | _ => simp only [WF, val, dvs, List.mem_append] at * <;> simp_all

/-- **C94** (necessary and complete).  The design variables an expression adds Jacobians for are exactly those it
reports, with and without a chain rule matrix and whatever the members of its nodes hold. -/
theorem C94_complete (f : ℕ → (k : Kind) × Expr k) (x : State) {k : Kind} (e : Expr k) (hw : WF f e) (c : Cache)
    (d : DV) :
    (∀ (m : ℕ) (M : Chain m k), d ∈ (jac x e M c).1.map Sigma.fst ↔ d ∈ dvs e) ∧
    ∀ hk : k ≠ .mat, d ∈ (jac0 x e hk c).1.map Sigma.fst ↔ d ∈ dvs e :=
  ⟨fun _ M => jac_dvs x e hw M c d, fun hk => jac0_dvs x e hw hk c d⟩

/-- Witness: a reported variable and one that is not. -/
example : DV.euc 1 ∈ dvs demoE ∧ DV.euc 2 ∉ dvs demoE := by simp [dvs, demoE]

/-! ## C95: reverting an update -/

/-- Specification: the design variables in `A` are updated, the others are left alone. -/
noncomputable def updateOn (A : DV → Bool) (x : State) (δ : Incr) : State where
  rot i := if A (.rot i) then (x.rot i).update (δ (.rot i)) else x.rot i
  euc i := if A (.euc i) then (x.euc i).update (δ (.euc i)) else x.euc i
  sca i := if A (.sca i) then (x.sca i).update (δ (.sca i)) else x.sca i
  hom i := if A (.hom i) then (x.hom i).update (δ (.hom i)) else x.hom i
  dir i := if A (.dir i) then (x.dir i).update (δ (.dir i)) else x.dir i
  mat i cells := if A (.mat i cells) then (x.mat i cells).update (δ (.mat i cells)) else x.mat i cells
  vec i n := if A (.vec i n) then (x.vec i n).update (δ (.vec i n)) else x.vec i n

/-- Specification: the update of the design variables in `A` is reverted. -/
def revertOn (A : DV → Bool) (x : State) : State where
  rot i := if A (.rot i) then (x.rot i).revert else x.rot i
  euc i := if A (.euc i) then (x.euc i).revert else x.euc i
  sca i := if A (.sca i) then (x.sca i).revert else x.sca i
  hom i := if A (.hom i) then (x.hom i).revert else x.hom i
  dir i := if A (.dir i) then (x.dir i).revert else x.dir i
  mat i cells := if A (.mat i cells) then (x.mat i cells).revert else x.mat i cells
  vec i n := if A (.vec i n) then (x.vec i n).revert else x.vec i n

/-- Specification: what `setParameters` and the constructors do to the rotations; the other classes have no
member that depends on another one, so any content is allowed for them. -/
inductive Touched : State → Prop
  /-- `RotationQuaternion(q)` (RotationQuaternion.cpp:7-10), `MappedRotationQuaternion(q)` -/
  | start (x : State) (h : ∀ i, (x.rot i).C = quat2r (x.rot i).q) : Touched x
  /-- `RotationQuaternion(C)` (RotationQuaternion.cpp:12-15) -/
  | ofMatrix (x : State) (i : ℕ) (C : M3) (hC : C ∈ SO3) (h : Touched x) :
      Touched { x with rot := Function.update x.rot i ⟨r2quat C, r2quat C, C⟩ }
  /-- `setParameters` of a rotation (RotationQuaternion.cpp:73-78) -/
  | setRot (x : State) (i : ℕ) (q : V4) (h : Touched x) :
      Touched { x with rot := Function.update x.rot i ((x.rot i).setParameters q) }
  /-- `set`, `setParameters` or anything else with the other design variables -/
  | setOther (x y : State) (hr : x.rot = y.rot) (h : Touched x) : Touched y
  | update (x : State) (A : DV → Bool) (δ : Incr) (h : Touched x) : Touched (updateOn A x δ)
  | revert (x : State) (A : DV → Bool) (h : Touched x) : Touched (revertOn A x)

theorem touched_consistent {x : State} (h : Touched x) : ∀ i, (x.rot i).C = quat2r (x.rot i).q := by
  induction h with
  | start x h => exact h
  | ofMatrix x i C hC _ ih =>
    intro j
    by_cases hj : j = i
    · subst hj; simp [(C49_round_trip C hC).1]
    · simp [hj, ih j]
  | setRot x i q _ ih =>
    intro j
    by_cases hj : j = i
    · subst hj; simp [RotDv.setParameters]
    · simp [hj, ih j]
  | setOther x y hr _ ih => rw [← hr]; exact ih
  | update x A δ _ ih =>
    intro j
    simp only [updateOn]
    split_ifs
    · rfl
    · exact ih j
  | revert x A _ ih =>
    intro j
    simp only [revertOn]
    split_ifs
    · rfl
    · exact ih j

/-- **C95**.  After any history of constructions, updates, reverts and settings of parameters, updating some
design variables and reverting them gives every expression the value it had, and every design variable the
parameters it had. -/
theorem C95_revert (f : ℕ → (k : Kind) × Expr k) (x : State) (h : Touched x) (A : DV → Bool) (δ : Incr) {k : Kind}
    (e : Expr k) (hw : WF f e) (c c' : Cache) :
    (eval (revertOn A (updateOn A x δ)) e c).1 = (eval x e c').1 := by
  rw [(C93_value f _ e hw c).1, (C93_value f x e hw c').1]
  have hc := touched_consistent h
  clear hw
  induction e with
  | rotDv i =>
    simp only [val, revertOn, updateOn]
    by_cases hA : A (.rot i) <;> simp [hA, RotDv.revert, RotDv.update, hc]
  | eucDv i =>
    simp only [val, revertOn, updateOn]
    by_cases hA : A (.euc i) <;> simp [hA, EucDv.revert, EucDv.update]
  | dirDv i =>
    simp only [val, revertOn, updateOn]
    by_cases hA : A (.dir i) <;> simp [hA, DirDv.revert, DirDv.update]
  | scaDv i =>
    simp only [val, revertOn, updateOn]
    by_cases hA : A (.sca i) <;> simp [hA, ScaDv.revert, ScaDv.update]
  | homDv i =>
    simp only [val, revertOn, updateOn]
    by_cases hA : A (.hom i) <;> simp [hA, HomDv.revert, HomDv.update]
  | matDv i cells =>
    simp only [val, revertOn, updateOn]
    by_cases hA : A (.mat i cells) <;> simp [hA, MatDv.revert, MatDv.update]
  | leaf L =>
    simp only [val]
    congr 1
    funext i n
    simp only [State.vecs, revertOn, updateOn]
    by_cases hA : A (.vec i n) <;> simp [hA, VecDv.revert, VecDv.update]
  | _ => simp only [val] <;> simp_all

/-- Witness for the hypotheses of `C95_revert`. -/
example : Touched demo := .start _ fun _ => rfl

/-- `RotationQuaternion::set` (RotationQuaternion.hpp:41, MappedRotationQuaternion.hpp:32): `_C` is not touched. -/
def RotDv.set (d : RotDv) (q : V4) : RotDv := ⟨q, q, d.C⟩

/-- **C95** (after `set`).  The public `set` of rotations is outside that history: it leaves the rotation matrix as
it was, so that the rotation reported is the old one, and updating by zero and reverting changes it. -/
theorem C95_set_counterexample : ∃ (d : RotDv) (q : V4), d.C = quat2r d.q ∧ Unit4 d.q ∧ Unit4 q ∧
    (d.set q).C = d.C ∧ quat2r q ≠ d.C ∧ ((d.set q).update 0).revert.C ≠ (d.set q).C := by
  refine ⟨⟨![0, 0, 0, 1], 0, quat2r ![0, 0, 0, 1]⟩, ![1, 0, 0, 0], rfl, by simp [Unit4], by simp [Unit4], rfl, ?_, ?_⟩
  · intro h
    have := congrFun (congrFun h 1) 1
    simp [quat2r] at this
    norm_num at this
  · intro h
    have := congrFun (congrFun h 1) 1
    simp [quat2r, RotDv.set, RotDv.revert, RotDv.update] at this
    norm_num at this

/-- **C95** (a matrix design variable).  `update` adds to every entry of the matrix the increments of the cells
that name this entry (row, column), and leaves every other entry as it was. -/
theorem C95_matrix_cells {cells : List (Fin 3 × Fin 3)} (d : MatDv) (dp : Fin cells.length → ℝ) (i j : Fin 3) :
    (d.update dp).A i j = d.A i j + ∑ k, if cells.get k = (i, j) then dp k else 0 := by
  change (d.A + unvec ((matB cells).mulVec dp) : M3) i j = _
  rw [Matrix.add_apply, unvec_apply, Matrix.mulVec, dotProduct]
  congr 1
  refine Finset.sum_congr rfl fun k _ => ?_
  have h1 := (cells.get k).1.isLt
  have h2 := i.isLt
  have e : (3 * (j : ℕ) + i = (cells.get k).2 * 3 + (cells.get k).1) ↔ cells.get k = (i, j) := by
    rw [Prod.ext_iff, Fin.ext_iff, Fin.ext_iff]
    constructor
    · intro h; constructor <;> dsimp only <;> omega
    · rintro ⟨ha, hb⟩; dsimp only at ha hb; omega
  simp only [matB, Matrix.of_apply, e]
  split_ifs <;> ring

example : ((⟨0, 0⟩ : MatDv).update (cells := [(0, 1), (2, 2)]) ![3, 4]).A 0 1 = 3 := by
  rw [C95_matrix_cells]
  change (0 : M3) 0 1 + ∑ k : Fin 2, (if [((0 : Fin 3), (1 : Fin 3)), (2, 2)].get k = (0, 1) then
    (![3, 4] : Fin 2 → ℝ) k else 0) = 3
  rw [Fin.sum_univ_two]
  simp

/-! ## C96: minimal differences -/

/-- `EuclideanPoint::minimalDifferenceImplementation` (EuclideanPoint.cpp:80-84). -/
def EucDv.minimalDifference (d : EucDv) (xHat : V3) : V3 := d.p - xHat

/-- `MappedEuclideanPoint::minimalDifferenceImplementation` (MappedEuclideanPoint.cpp:76-80). -/
def EucDv.minimalDifferenceMapped (d : EucDv) (xHat : V3) : V3 := d.pp - xHat

/-- `Scalar::minimalDifferenceImplementation` (Scalar.cpp:82-87). -/
def ScaDv.minimalDifference (d : ScaDv) (xHat : ℝ) : Fin 1 → ℝ := fun _ => d.p - xHat

/-- `RotationQuaternion::minimalDifferenceImplementation` (RotationQuaternion.cpp:80-84). -/
noncomputable def RotDv.minimalDifference (d : RotDv) (xHat : V4) : V3 := quat2AxisAngle (qplus d.q (quatInv xHat))

/-- `MappedRotationQuaternion::minimalDifferenceImplementation` (MappedRotationQuaternion.cpp:74-78). -/
noncomputable def RotDv.minimalDifferenceMapped (d : RotDv) (xHat : V4) : V3 :=
  quat2AxisAngle (qplus d.pq (quatInv xHat))

/-- `HomogeneousPoint::minimalDifferenceImplementation` (HomogeneousPoint.cpp:76-80). -/
noncomputable def HomDv.minimalDifference (d : HomDv) (xHat : V4) : V3 := quat2AxisAngle (qplus d.p (quatInv xHat))

/-- `MappedHomogeneousPoint::minimalDifferenceImplementation` (MappedHomogeneousPoint.cpp:76-80). -/
noncomputable def HomDv.minimalDifferenceMapped (d : HomDv) (xHat : V4) : V3 :=
  quat2AxisAngle (qplus d.pp (quatInv xHat))

/-- **C96** (linear).  The minimal difference of a point or scalar to `xHat` is the update that leads from `xHat` to
the current value, and the only one. -/
theorem C96_linear (d : EucDv) (s : ScaDv) (xHat : V3) (sHat : ℝ) (a b : V3) (t u : ℝ) :
    ((EucDv.update ⟨xHat, a⟩ b).p = d.p ↔ b = d.minimalDifference xHat) ∧
    ((ScaDv.update ⟨sHat, t⟩ fun _ => u).p = s.p ↔ (fun _ => u) = s.minimalDifference sHat) := by
  constructor
  · simp only [EucDv.update, EucDv.minimalDifference]
    constructor
    · intro h; rw [← h]; simp
    · rintro rfl; simp
  · simp only [ScaDv.update]
    constructor
    · intro h; funext _; simp only [ScaDv.minimalDifference]; linarith
    · intro h
      have := congrFun h 0
      simp only [ScaDv.minimalDifference] at this
      linarith

/-- **C96** (quaternions).  The minimal difference of a rotation or unit homogeneous point to `xHat` is an update
that leads from `xHat` to the current value, if the two are equal or not too close.  Missing: rotations between
the two that are not zero but smaller than the threshold (see C81), where it is so up to rounding errors only. -/
theorem C96_quaternion_partial (d : RotDv) (p : HomDv) (xHat : V4) (pq : V4) (C : M3) (hx : Unit4 xHat) :
    (Unit4 d.q → eps4 ≤ norm3 (qeps (qplus d.q (quatInv xHat))) ∨ d.q = xHat →
      (RotDv.update ⟨xHat, pq, C⟩ (d.minimalDifference xHat)).q = d.q ∧
      (RotDv.update ⟨xHat, pq, C⟩ (d.minimalDifference xHat)).C = quat2r d.q) ∧
    (Unit4 p.p → eps4 ≤ norm3 (qeps (qplus p.p (quatInv xHat))) ∨ p.p = xHat →
      (HomDv.update ⟨xHat, pq⟩ (p.minimalDifference xHat)).p = p.p) := by
  have key (q : V4) (hq : Unit4 q) (h : eps4 ≤ norm3 (qeps (qplus q (quatInv xHat))) ∨ q = xHat) :
      updateQuat xHat (quat2AxisAngle (qplus q (quatInv xHat))) = q := by
    rcases h with h | rfl
    · exact C80_reaches_partial xHat q hx hq h
    · have h1 : qplus q (quatInv q) = quatIdentity := by
        unfold Unit4 at hq
        apply ext4 <;> simp [qplus, quatInv, quatIdentity] <;> ring_nf <;> linarith
      have h2 : quat2AxisAngle quatIdentity = 0 := by
        apply ext3 <;> simp [quat2AxisAngle, quatIdentity, qeps, norm3] <;> split_ifs <;> simp
      rw [h1, h2, updateQuat_zero]
  refine ⟨fun hq h => ?_, fun hp h => ?_⟩
  · simp only [RotDv.update, RotDv.minimalDifference, key d.q hq h, and_self]
  · simp only [HomDv.update, HomDv.minimalDifference, key p.p hp h]

/-- Witness for the hypotheses of `C96_quaternion_partial`: half a turn apart. -/
example : Unit4 (![1, 0, 0, 0] : V4) ∧ Unit4 quatIdentity ∧
    eps4 ≤ norm3 (qeps (qplus ![1, 0, 0, 0] (quatInv quatIdentity))) := by
  refine ⟨by simp [Unit4], by simp [Unit4, quatIdentity], ?_⟩
  simp [qplus, quatInv, quatIdentity, qeps, norm3, eps4]
  norm_num

/-- **C96** (mapped classes).  The mapped points compute the difference from the value before the last update: after
an update by `b` it is off by exactly `b`, and the difference of a point to its own current value is not zero. -/
theorem C96_mapped_counterexample (d : EucDv) (b xHat : V3) (xHat4 : V4) :
    (d.update b).minimalDifferenceMapped xHat = (d.update b).minimalDifference xHat - b ∧
    (b ≠ 0 → (d.update b).minimalDifferenceMapped (d.update b).p ≠ 0) ∧
    (∀ (r : RotDv) (a : V3), (r.update a).minimalDifferenceMapped xHat4 = r.minimalDifference xHat4) ∧
    (∀ (p : HomDv) (a : V3), (p.update a).minimalDifferenceMapped xHat4 = p.minimalDifference xHat4) := by
  refine ⟨?_, fun hb h => hb ?_, fun r a => rfl, fun p a => rfl⟩
  · simp [EucDv.minimalDifferenceMapped, EucDv.minimalDifference, EucDv.update]
    abel
  · simpa [EucDv.minimalDifferenceMapped, EucDv.update] using h

end Kalibr.Exp
