import Verif.Expr.Leaves

/-!
# The velocity of the value of an expression

`vel` is the velocity the Jacobians stand for, node by node; `moves` shows that it is the velocity of the value.
-/

namespace Kalibr.Exp

open Kalibr.Kin Matrix

/-- The velocity of the value when the design variables are updated along an increment. -/
noncomputable def vel (x : State) (δ : Incr) : {k : Kind} → Expr k → Fin (tdim k) → ℝ
  | _, .rotDv i => δ (.rot i)
  | _, .rotMul _ l r => (vel x δ l : V3) + (val x l : M3).mulVec (vel x δ r)
  | _, .rotInv _ e => (-(val x e : M3)ᵀ).mulVec (vel x δ e)
  | _, .rotOfTr e => jRotOfTr.mulVec (vel x δ e)
  | _, .eucDv i => δ (.euc i)
  | _, .dirDv i => (jDir (x.dir i)).mulVec (δ (.dir i))
  | _, .eucConst _ => (0 : V3)
  | _, .rotEuc _ l r => (crossMx ((val x l : M3).mulVec (val x r))).mulVec (vel x δ l) +
      (val x l : M3).mulVec (vel x δ r)
  | _, .matEuc _ l r => (jFull (val x r)).mulVec (vel x δ l) + (val x l : M3).mulVec (vel x δ r)
  | _, .cross l r => (-crossMx (val x r)).mulVec (vel x δ l) + (crossMx (val x l)).mulVec (vel x δ r)
  | _, .add l r => (vel x δ l : V3) + (vel x δ r : V3)
  | _, .sub l r => (vel x δ l : V3) - (vel x δ r : V3)
  | _, .subVec l _ => vel x δ l
  | _, .neg e => -(vel x δ e : V3)
  | _, .smul p s => (val x s : ℝ) • (vel x δ p : V3) + (col3 (val x p)).mulVec (vel x δ s)
  | _, .cwise l r => (Matrix.diagonal (val x r : V3)).mulVec (vel x δ l) +
      (Matrix.diagonal (val x l : V3)).mulVec (vel x δ r)
  | _, .transl e => (jTransl (transform2rho (val x e))).mulVec (vel x δ e)
  | _, .rotParams rk e => ((rk.S (rk.ofR (val x e)))⁻¹).mulVec (vel x δ e)
  | _, .ofHom e => (fromHomogeneousJacobian (val x e)).mulVec (vel x δ e)
  | _, .scaDv i => δ (.sca i)
  | _, .scaConst _ => (0 : Fin 1 → ℝ)
  | _, .scaMul l r => (mx1 (val x r)).mulVec (vel x δ l) + (mx1 (val x l)).mulVec (vel x δ r)
  | _, .scaDiv l r => (mx1 (1 / (val x r : ℝ))).mulVec (vel x δ l) +
      (mx1 (-(val x l : ℝ) / ((val x r : ℝ) * (val x r : ℝ)))).mulVec (vel x δ r)
  | _, .scaAdd l r t => (vel x δ l : Fin 1 → ℝ) + t • (vel x δ r : Fin 1 → ℝ)
  | _, .homDv i => (quatInvS (x.hom i).p).mulVec (δ (.hom i))
  | _, .homConst _ => (0 : V4)
  | _, .trHom _ l r => (boxMinus ((val x l : M4).mulVec (val x r))).mulVec (vel x δ l) +
      (val x l : M4).mulVec (vel x δ r)
  | _, .homOfEuc e => jHomOfEuc.mulVec (vel x δ e)
  | _, .trBasic C t => (jBasicRot (val x t)).mulVec (vel x δ C) + jBasicTransl.mulVec (vel x δ t)
  | _, .trConst _ => (0 : Fin 6 → ℝ)
  | _, .trMul _ l r => (vel x δ l : Fin 6 → ℝ) + (boxTimes (val x l)).mulVec (vel x δ r)
  | _, .trInv _ e => (-boxTimes ((val x e : M4)⁻¹)).mulVec (vel x δ e)
  | _, .matDv i cells => (matB cells).mulVec (δ (.mat i cells))
  | _, .leaf L => lin (L.blocks x.vecs) δ

theorem SO3_transpose {C : M3} (h : C ∈ SO3) : Cᵀ ∈ SO3 := by
  have h2 := SO3_tr h
  rw [Matrix.mem_specialOrthogonalGroup_iff, Matrix.mem_orthogonalGroup_iff] at h ⊢
  refine ⟨?_, by rw [Matrix.det_transpose]; exact h.2⟩
  exact h2.1

theorem rt_inv {C : M3} (h : C ∈ SO3) (t : V3) :
    (rt2Transform C t)⁻¹ = rt2Transform Cᵀ ((-Cᵀ).mulVec t) := by
  apply Matrix.inv_eq_right_inv
  rw [rt2Transform_mul, (SO3_tr h).2, ← rt2Transform_one]
  congr 1
  rw [Matrix.mulVec_mulVec, Matrix.mul_neg, (SO3_tr h).2, Matrix.neg_mulVec, Matrix.one_mulVec, neg_add_cancel]

theorem rt_unit {C : M3} (h : C ∈ SO3) (t : V3) : IsUnit (rt2Transform C t) := by
  have h1 : rt2Transform C t * rt2Transform Cᵀ ((-Cᵀ).mulVec t) = 1 := by
    rw [rt2Transform_mul, (SO3_tr h).2, ← rt2Transform_one]
    congr 1
    rw [Matrix.mulVec_mulVec, Matrix.mul_neg, (SO3_tr h).2, Matrix.neg_mulVec, Matrix.one_mulVec, neg_add_cancel]
  exact ⟨⟨_, _, h1, mul_eq_one_comm.mp h1⟩, rfl⟩

/-- The rotations of an expression are rotations. -/
theorem shape (x : State) {k : Kind} (e : Expr k) (h : Regular x e) : Shape k (val x e) := by
  induction e with
  | rotDv i =>
    rw [Shape, val, h.2]
    exact C48_unit_gives_rotation _ h.1
  | rotMul id l r hl hr => exact SO3.mul_mem (hl h.1) (hr h.2)
  | rotInv id e he => exact SO3_transpose (he h)
  | rotOfTr e he =>
    obtain ⟨C, hC, t, hT⟩ := he h
    rw [Shape, val, hT, transform2C_rt]
    exact hC
  | trBasic C t hC _ => exact ⟨_, hC h.1, _, rfl⟩
  | trConst T => exact h
  | trMul id l r hl hr =>
    obtain ⟨C, hC, t, hT⟩ := hl h.1
    obtain ⟨D, hD, u, hU⟩ := hr h.2
    refine ⟨C * D, SO3.mul_mem hC hD, C.mulVec u + t, ?_⟩
    rw [val, hT, hU, rt2Transform_mul]
  | trInv id e he =>
    obtain ⟨C, hC, t, hT⟩ := he h
    refine ⟨Cᵀ, SO3_transpose hC, (-Cᵀ).mulVec t, ?_⟩
    rw [val, hT, rt_inv hC]
  | leaf L => exact h.1
  | _ => trivial

theorem along_zero (x : State) (δ : Incr) {k : Kind} (e : Expr k) (h : Regular x e) :
    val (along x δ 0) e = val x e := by
  induction e with
  | rotDv i =>
    simp only [val, along, State.update, RotDv.update, zero_smul, updateQuat_zero, h.2]
  | rotMul id l r hl hr => simp only [val]; rw [hl h.1, hr h.2]
  | rotInv id e he => simp only [val]; rw [he h]
  | rotOfTr e he => simp only [val]; rw [he h]
  | eucDv i => simp [val, along, State.update, EucDv.update]
  | dirDv i => simp [val, along, State.update, DirDv.update, dir_zero]
  | eucConst p => rfl
  | rotEuc id l r hl hr => simp only [val]; rw [hl h.1, hr h.2]
  | matEuc id l r hl hr => simp only [val]; rw [hl h.1, hr h.2]
  | cross l r hl hr => simp only [val]; rw [hl h.1, hr h.2]
  | add l r hl hr => simp only [val]; rw [hl h.1, hr h.2]
  | sub l r hl hr => simp only [val]; rw [hl h.1, hr h.2]
  | subVec l p hl => simp only [val]; rw [hl h]
  | neg e he => simp only [val]; rw [he h]
  | smul p s hp hs => simp only [val]; rw [hp h.1, hs h.2]
  | cwise l r hl hr => simp only [val]; rw [hl h.1, hr h.2]
  | transl e he => simp only [val]; rw [he h]
  | rotParams rk e he => simp only [val]; rw [he h.1]
  | ofHom e he => simp only [val]; rw [he h.1]
  | scaDv i => simp [val, along, State.update, ScaDv.update]
  | scaConst s => rfl
  | scaMul l r hl hr => simp only [val]; rw [hl h.1, hr h.2]
  | scaDiv l r hl hr => simp only [val]; rw [hl h.1, hr h.2.1]
  | scaAdd l r m hl hr => simp only [val]; rw [hl h.1, hr h.2]
  | homDv i => simp [val, along, State.update, HomDv.update, updateQuat_zero]
  | homConst p => rfl
  | trHom id l r hl hr => simp only [val]; rw [hl h.1, hr h.2]
  | homOfEuc e he => simp only [val]; rw [he h]
  | trBasic C t hC ht => simp only [val]; rw [hC h.1, ht h.2]
  | trConst T => rfl
  | trMul id l r hl hr => simp only [val]; rw [hl h.1, hr h.2]
  | trInv id e he => simp only [val]; rw [he h]
  | matDv i cells =>
    have : unvec 0 = 0 := by ext i j; fin_cases i <;> fin_cases j <;> rfl
    simp [val, along, State.update, MatDv.update, this]
  | leaf L =>
    simp only [val]
    congr 1
    funext i n
    simp [along, State.update, State.vecs, VecDv.update]

/-! ## One lemma for each kind of node -/

theorem rotMul_moves {C D : ℝ → M3} {ω η : V3} (h0 : C 0 ∈ SO3) (hC : AngularVelocity C ω 0)
    (hD : AngularVelocity D η 0) : AngularVelocity (fun s => C s * D s) (ω + (C 0).mulVec η) 0 := by
  rw [angular_iff] at *
  refine (hC.mul hD).congr ?_
  have h1 := SO3_cross h0 η
  have h2 : crossMx (ω + (C 0).mulVec η) = crossMx ω + crossMx ((C 0).mulVec η) := by
    ext i j; fin_cases i <;> fin_cases j <;> simp [crossMx] <;> ring
  rw [h2, add_mul, ← mul_assoc (crossMx ((C 0).mulVec η)), h1]
  noncomm_ring

theorem crossMx_transpose (v : V3) : (crossMx v)ᵀ = -crossMx v := by
  ext i j; fin_cases i <;> fin_cases j <;> simp [crossMx]

theorem crossMx_neg (v : V3) : crossMx (-v) = -crossMx v := by
  ext i j; fin_cases i <;> fin_cases j <;> simp [crossMx]

theorem rotInv_moves {C : ℝ → M3} {ω : V3} (h0 : C 0 ∈ SO3) (hC : AngularVelocity C ω 0) :
    AngularVelocity (fun s => (C s)ᵀ) ((-(C 0)ᵀ).mulVec ω) 0 := by
  rw [angular_iff] at *
  refine hC.transpose.congr ?_
  have h1 := SO3_cross (SO3_transpose h0) ω
  rw [Matrix.neg_mulVec, crossMx_neg, neg_mul, h1]
  simp [Matrix.transpose_mul, crossMx_transpose]

/-- The derivative of a homogeneous matrix. -/
def rtd (A : M3) (b : V3) : M4 :=
  !![A 0 0, A 0 1, A 0 2, b 0;
     A 1 0, A 1 1, A 1 2, b 1;
     A 2 0, A 2 1, A 2 2, b 2;
     0, 0, 0, 0]

theorem hat_mul_rt (ξ : Fin 6 → ℝ) (C : M3) (t : V3) : hat ξ * rt2Transform C t =
    rtd (-(crossMx ![ξ 3, ξ 4, ξ 5] * C)) (![ξ 0, ξ 1, ξ 2] + (crossMx t).mulVec ![ξ 3, ξ 4, ξ 5]) := by
  ext i j
  fin_cases i <;> fin_cases j <;>
    simp only [rtd, hat, rt2Transform, Matrix.mul_apply, Matrix.neg_apply, Fin.sum_univ_succ, crossMx, Pi.add_apply,
      Matrix.mulVec, dotProduct] <;> simp <;> ring

theorem rt_deriv {C : ℝ → M3} {t : ℝ → V3} {A : M3} {b : V3} :
    MDeriv (fun s => rt2Transform (C s) (t s)) (rtd A b) ↔ MDeriv C A ∧ VDeriv t b := by
  constructor
  · intro h
    constructor
    · intro i j
      have := h (Fin.castSucc i) (Fin.castSucc j)
      fin_cases i <;> fin_cases j <;> exact this
    · intro i
      have := h (Fin.castSucc i) 3
      fin_cases i <;> exact this
  · rintro ⟨hC, ht⟩ i j
    fin_cases i
    · fin_cases j
      · exact hC 0 0
      · exact hC 0 1
      · exact hC 0 2
      · exact ht 0
    · fin_cases j
      · exact hC 1 0
      · exact hC 1 1
      · exact hC 1 2
      · exact ht 1
    · fin_cases j
      · exact hC 2 0
      · exact hC 2 1
      · exact hC 2 2
      · exact ht 2
    · fin_cases j
      · exact hasDerivAt_const (0 : ℝ) (0 : ℝ)
      · exact hasDerivAt_const (0 : ℝ) (0 : ℝ)
      · exact hasDerivAt_const (0 : ℝ) (0 : ℝ)
      · exact hasDerivAt_const (0 : ℝ) (1 : ℝ)

/-- The two parts of a twist. -/
theorem twist_parts {C : ℝ → M3} {t : ℝ → V3} {ξ : Fin 6 → ℝ} :
    TwistVelocity (fun s => rt2Transform (C s) (t s)) ξ ↔
      AngularVelocity C ![ξ 3, ξ 4, ξ 5] 0 ∧
        VDeriv t (![ξ 0, ξ 1, ξ 2] + (crossMx (t 0)).mulVec ![ξ 3, ξ 4, ξ 5]) := by
  rw [twist_iff, angular_iff, hat_mul_rt, rt_deriv]

/-- The parts of a transformation that moves, whose rows need not be those of a rigid one away from zero. -/
theorem twist_proj {T : ℝ → M4} {ξ : Fin 6 → ℝ} (h0 : Rigid (T 0)) (h : TwistVelocity T ξ) :
    AngularVelocity (fun s => transform2C (T s)) ![ξ 3, ξ 4, ξ 5] 0 ∧
      VDeriv (fun s => transform2rho (T s))
        (![ξ 0, ξ 1, ξ 2] + (crossMx (transform2rho (T 0))).mulVec ![ξ 3, ξ 4, ξ 5]) := by
  obtain ⟨C, hC, t, hT⟩ := h0
  rw [twist_iff, hT, hat_mul_rt] at h
  rw [angular_iff]
  simp only [hT, transform2C_rt, transform2rho_rt]
  constructor
  · intro i j
    have := h (Fin.castSucc i) (Fin.castSucc j)
    fin_cases i <;> fin_cases j <;> exact this
  · intro i
    have := h (Fin.castSucc i) 3
    fin_cases i <;> exact this

theorem hat_add (ξ η : Fin 6 → ℝ) : hat (ξ + η) = hat ξ + hat η := by
  ext i j; fin_cases i <;> fin_cases j <;> simp [hat] <;> ring

theorem hat_neg (ξ : Fin 6 → ℝ) : hat (-ξ) = -hat ξ := by
  ext i j; fin_cases i <;> fin_cases j <;> simp [hat]

theorem blocks6_mulVec (A B D : M3) (ξ : Fin 6 → ℝ) :
    (blocks6 A B 0 D).mulVec ξ =
      let ρ := A.mulVec ![ξ 0, ξ 1, ξ 2] + B.mulVec ![ξ 3, ξ 4, ξ 5]
      let ω := D.mulVec ![ξ 3, ξ 4, ξ 5]
      ![ρ 0, ρ 1, ρ 2, ω 0, ω 1, ω 2] := by
  funext i
  fin_cases i <;>
    simp [blocks6, Matrix.mulVec, dotProduct, Fin.sum_univ_succ] <;> ring

/-- The adjoint of a transformation carries a twist to the other side. -/
theorem boxTimes_hat {C : M3} (hC : C ∈ SO3) (t : V3) (ξ : Fin 6 → ℝ) :
    hat ((boxTimes (rt2Transform C t)).mulVec ξ) * rt2Transform C t = rt2Transform C t * hat ξ := by
  rw [hat_mul_rt, boxTimes, transform2C_rt, transform2rho_rt, blocks6_mulVec, ← Matrix.mulVec_mulVec]
  have h := SO3_cross hC ![ξ 3, ξ 4, ξ 5]
  generalize hw : C.mulVec ![ξ 3, ξ 4, ξ 5] = w at *
  have e : rt2Transform C t * hat ξ = rtd (-(C * crossMx ![ξ 3, ξ 4, ξ 5])) (C.mulVec ![ξ 0, ξ 1, ξ 2]) := by
    ext i j
    fin_cases i <;> fin_cases j <;>
      simp only [rtd, hat, rt2Transform, Matrix.mul_apply, Matrix.neg_apply, Fin.sum_univ_succ, crossMx,
        Matrix.mulVec, dotProduct] <;> simp <;> ring
  rw [e, ← h]
  have e3 : (![w 0, w 1, w 2] : V3) = w := by apply ext3 <;> rfl
  simp only [Matrix.cons_val, e3]
  congr 1
  rw [Matrix.neg_mulVec]
  apply ext3 <;> simp

theorem trMul_moves {T U : ℝ → M4} {ξ η : Fin 6 → ℝ} (h0 : Rigid (T 0)) (hT : TwistVelocity T ξ)
    (hU : TwistVelocity U η) : TwistVelocity (fun s => T s * U s) (ξ + (boxTimes (T 0)).mulVec η) := by
  obtain ⟨C, hC, t, e⟩ := h0
  rw [twist_iff] at *
  refine (hT.mul hU).congr ?_
  have h := boxTimes_hat hC t η
  rw [hat_add, add_mul, ← mul_assoc (hat ((boxTimes (T 0)).mulVec η)), e, h]
  noncomm_ring

theorem trInv_moves {T : ℝ → M4} {ξ : Fin 6 → ℝ} (h0 : Rigid (T 0)) (hT : TwistVelocity T ξ) :
    TwistVelocity (fun s => (T s)⁻¹) ((-boxTimes ((T 0)⁻¹)).mulVec ξ) := by
  obtain ⟨C, hC, t, e⟩ := h0
  rw [twist_iff] at *
  have hu : IsUnit (T 0) := e ▸ rt_unit hC t
  refine (hT.inv hu).congr ?_
  have h := boxTimes_hat (SO3_transpose hC) ((-Cᵀ).mulVec t) ξ
  rw [← rt_inv hC, ← e] at h
  rw [Matrix.neg_mulVec, hat_neg, neg_mul, h]
  congr 1
  rw [mul_assoc, mul_assoc, Matrix.mul_nonsing_inv _ ((Matrix.isUnit_iff_isUnit_det _).mp hu), mul_one]

theorem trBasic_moves {C : ℝ → M3} {t : ℝ → V3} {ω v : V3} (hC : AngularVelocity C ω 0) (ht : HasDerivAt t v 0) :
    TwistVelocity (fun s => rt2Transform (C s) (t s)) ((jBasicRot (t 0)).mulVec ω + jBasicTransl.mulVec v) := by
  rw [twist_parts]
  have e : (![((jBasicRot (t 0)).mulVec ω + jBasicTransl.mulVec v) 3,
      ((jBasicRot (t 0)).mulVec ω + jBasicTransl.mulVec v) 4,
      ((jBasicRot (t 0)).mulVec ω + jBasicTransl.mulVec v) 5] : V3) = ω := by
    apply ext3 <;> simp [jBasicRot, jBasicTransl, Matrix.mulVec, dotProduct, Fin.sum_univ_succ]
  rw [e]
  refine ⟨hC, (vderiv_iff.mpr ht).congr ?_⟩
  apply ext3 <;> simp [jBasicRot, jBasicTransl, crossMx, Matrix.mulVec, dotProduct, Fin.sum_univ_succ] <;> ring

theorem trHom_moves {T : ℝ → M4} {ξ : Fin 6 → ℝ} {p : ℝ → V4} {v : V4} (hT : TwistVelocity T ξ)
    (hp : HasDerivAt p v 0) :
    HasDerivAt (fun s => (T s).mulVec (p s)) ((boxMinus ((T 0).mulVec (p 0))).mulVec ξ + (T 0).mulVec v) 0 := by
  rw [twist_iff] at hT
  rw [← vderiv_iff] at *
  refine (hT.mulVec hp).congr ?_
  congr 1
  rw [← Matrix.mulVec_mulVec, hat_mulVec]
  generalize (T 0).mulVec (p 0) = y
  apply ext4 <;> simp [boxMinus, Matrix.mulVec, dotProduct, Fin.sum_univ_succ] <;> ring

theorem rotEuc_moves {C : ℝ → M3} {ω : V3} {p : ℝ → V3} {v : V3} (hC : AngularVelocity C ω 0)
    (hp : HasDerivAt p v 0) :
    HasDerivAt (fun s => (C s).mulVec (p s)) ((crossMx ((C 0).mulVec (p 0))).mulVec ω + (C 0).mulVec v) 0 := by
  rw [angular_iff] at hC
  rw [← vderiv_iff] at *
  refine (hC.mulVec hp).congr ?_
  congr 1
  rw [Matrix.neg_mulVec, ← Matrix.mulVec_mulVec]
  generalize (C 0).mulVec (p 0) = y
  apply ext3 <;> simp [crossMx, Matrix.mulVec, dotProduct, Fin.sum_univ_succ] <;> ring

theorem ofHom_moves {p : ℝ → V4} {v : V4} (h0 : p 0 3 ≠ 0) (hp : HasDerivAt p v 0) :
    HasDerivAt (fun s => fromHomogeneous (p s)) ((fromHomogeneousJacobian (p 0)).mulVec v) 0 := by
  rw [← vderiv_iff] at *
  have hi : HasDerivAt (fun s => 1 / p s 3) (-(v 3) / p 0 3 ^ 2) 0 := by
    simpa [one_div] using (hp 3).fun_inv h0
  intro i
  fin_cases i
  · refine ((hp 0).mul hi).congr_deriv ?_
    simp [fromHomogeneousJacobian, fromHomogeneous, Matrix.mulVec, dotProduct, Fin.sum_univ_succ]; field_simp
  · refine ((hp 1).mul hi).congr_deriv ?_
    simp [fromHomogeneousJacobian, fromHomogeneous, Matrix.mulVec, dotProduct, Fin.sum_univ_succ]; field_simp
  · refine ((hp 2).mul hi).congr_deriv ?_
    simp [fromHomogeneousJacobian, fromHomogeneous, Matrix.mulVec, dotProduct, Fin.sum_univ_succ]; field_simp

theorem rotOfTr_moves {T : ℝ → M4} {ξ : Fin 6 → ℝ} (h0 : Rigid (T 0)) (h : TwistVelocity T ξ) :
    AngularVelocity (fun s => transform2C (T s)) (jRotOfTr.mulVec ξ) 0 := by
  have e3 : jRotOfTr.mulVec ξ = ![ξ 3, ξ 4, ξ 5] := by
    apply ext3 <;> simp [jRotOfTr, Matrix.mulVec, dotProduct, Fin.sum_univ_succ] <;> rfl
  rw [e3]
  exact (twist_proj h0 h).1

theorem transl_moves {T : ℝ → M4} {ξ : Fin 6 → ℝ} (h0 : Rigid (T 0)) (h : TwistVelocity T ξ) :
    HasDerivAt (fun s => transform2rho (T s)) ((jTransl (transform2rho (T 0))).mulVec ξ) 0 := by
  rw [← vderiv_iff]
  refine (twist_proj h0 h).2.congr ?_
  generalize transform2rho (T 0) = t
  apply ext3 <;> simp [jTransl, crossMx, Matrix.mulVec, dotProduct, Fin.sum_univ_succ] <;> ring

theorem matEuc_moves {A : ℝ → M3} {a : Fin 9 → ℝ} {p : ℝ → V3} {v : V3}
    (hA : ∀ i j : Fin 3, HasDerivAt (fun s => A s i j) (a ⟨3 * j + i, by omega⟩) 0) (hp : HasDerivAt p v 0) :
    HasDerivAt (fun s => (A s).mulVec (p s)) ((jFull (p 0)).mulVec a + (A 0).mulVec v) 0 := by
  have hA' : MDeriv A (unvec a) := fun i j => by rw [unvec_apply]; exact hA i j
  rw [← vderiv_iff] at *
  refine (hA'.mulVec hp).congr ?_
  congr 1
  apply ext3 <;> simp [jFull, unvec, Matrix.mulVec, dotProduct, Fin.sum_univ_succ] <;> ring

theorem cross_moves {p q : ℝ → V3} {v w : V3} (hp : HasDerivAt p v 0) (hq : HasDerivAt q w 0) :
    HasDerivAt (fun s => (crossMx (p s)).mulVec (q s)) ((-crossMx (q 0)).mulVec v + (crossMx (p 0)).mulVec w) 0 := by
  rw [← vderiv_iff] at *
  have hA : MDeriv (fun s => crossMx (p s)) (crossMx v) := by
    intro i j
    fin_cases i <;> fin_cases j
    · exact hasDerivAt_const _ _
    · exact (hp 2).fun_neg
    · exact hp 1
    · exact hp 2
    · exact hasDerivAt_const _ _
    · exact (hp 0).fun_neg
    · exact (hp 1).fun_neg
    · exact hp 0
    · exact hasDerivAt_const _ _
  refine (hA.mulVec hq).congr ?_
  congr 1
  generalize q 0 = y
  apply ext3 <;> simp [crossMx, Matrix.mulVec, dotProduct, Fin.sum_univ_succ] <;> ring

theorem smul_moves {p : ℝ → V3} {v : V3} {a : ℝ → ℝ} {b : Fin 1 → ℝ} (hp : HasDerivAt p v 0)
    (ha : HasDerivAt a (b 0) 0) :
    HasDerivAt (fun s j => p s j * a s) (a 0 • v + (col3 (p 0)).mulVec b) 0 := by
  rw [← vderiv_iff] at *
  intro j
  refine ((hp j).mul ha).congr_deriv ?_
  fin_cases j <;> simp [col3, Matrix.mulVec, dotProduct] <;> ring

theorem cwise_moves {p q : ℝ → V3} {v w : V3} (hp : HasDerivAt p v 0) (hq : HasDerivAt q w 0) :
    HasDerivAt (fun s j => p s j * q s j) ((Matrix.diagonal (q 0)).mulVec v + (Matrix.diagonal (p 0)).mulVec w)
      0 := by
  rw [← vderiv_iff] at *
  intro j
  refine ((hp j).mul (hq j)).congr_deriv ?_
  simp [Matrix.mulVec_diagonal]
  ring

theorem homOfEuc_moves {p : ℝ → V3} {v : V3} (hp : HasDerivAt p v 0) :
    HasDerivAt (fun s => toHomogeneous (p s)) (jHomOfEuc.mulVec v) 0 := by
  rw [← vderiv_iff] at *
  intro j
  fin_cases j
  · exact (hp 0).congr_deriv (by simp [jHomOfEuc, Matrix.mulVec, dotProduct, Fin.sum_univ_succ])
  · exact (hp 1).congr_deriv (by simp [jHomOfEuc, Matrix.mulVec, dotProduct, Fin.sum_univ_succ])
  · exact (hp 2).congr_deriv (by simp [jHomOfEuc, Matrix.mulVec, dotProduct, Fin.sum_univ_succ])
  · exact (hasDerivAt_const _ _).congr_deriv (by simp [jHomOfEuc, Matrix.mulVec, dotProduct, Fin.sum_univ_succ])

theorem scaMul_moves {a b : ℝ → ℝ} {u v : Fin 1 → ℝ} (ha : HasDerivAt a (u 0) 0) (hb : HasDerivAt b (v 0) 0) :
    HasDerivAt (fun s => a s * b s) (((mx1 (b 0)).mulVec u + (mx1 (a 0)).mulVec v) 0) 0 := by
  refine (ha.mul hb).congr_deriv ?_
  simp [mx1, Matrix.mulVec, dotProduct]
  ring

theorem scaDiv_moves {a b : ℝ → ℝ} {u v : Fin 1 → ℝ} (ha : HasDerivAt a (u 0) 0) (hb : HasDerivAt b (v 0) 0)
    (h0 : b 0 ≠ 0) : HasDerivAt (fun s => a s / b s)
      (((mx1 (1 / b 0)).mulVec u + (mx1 (-a 0 / (b 0 * b 0))).mulVec v) 0) 0 := by
  refine (ha.div hb h0).congr_deriv ?_
  simp [mx1, Matrix.mulVec, dotProduct]
  field_simp
  ring

theorem scaAdd_moves {a b : ℝ → ℝ} {u v : Fin 1 → ℝ} (t : ℝ) (ha : HasDerivAt a (u 0) 0)
    (hb : HasDerivAt b (v 0) 0) : HasDerivAt (fun s => a s + t * b s) ((u + t • v) 0) 0 :=
  ha.add (hb.const_mul t)

/-- The value of an expression moves with the velocity `vel`. -/
theorem moves (x : State) (δ : Incr) {k : Kind} (e : Expr k) (h : Regular x e) :
    Moves k (fun s => val (along x δ s) e) (vel x δ e) := by
  induction e with
  | rotDv i => exact rot_deriv (x.rot i).q (δ (.rot i))
  | rotMul id l r hl hr =>
    have h0 := along_zero x δ l h.1
    have := rotMul_moves (by rw [h0]; exact shape x l h.1) (hl h.1) (hr h.2)
    rw [h0] at this
    exact this
  | rotInv id e he =>
    have h0 := along_zero x δ e h
    have := rotInv_moves (by rw [h0]; exact shape x e h) (he h)
    rw [h0] at this
    exact this
  | rotOfTr e he =>
    have h0 := along_zero x δ e h
    exact rotOfTr_moves (by rw [h0]; exact shape x e h) (he h)
  | eucDv i =>
    show HasDerivAt _ _ _
    have := ((hasDerivAt_id (0 : ℝ)).smul_const (δ (.euc i))).const_add (x.euc i).p
    simpa [val, along, State.update, EucDv.update, vel] using this
  | dirDv i => exact vderiv_iff.mp (dir_deriv (x.dir i) (δ (.dir i)))
  | eucConst p => exact hasDerivAt_const _ _
  | rotEuc id l r hl hr =>
    have := rotEuc_moves (hl h.1) (hr h.2)
    rw [along_zero x δ l h.1, along_zero x δ r h.2] at this
    exact this
  | matEuc id l r hl hr =>
    have := matEuc_moves (hl h.1) (hr h.2)
    rw [along_zero x δ l h.1, along_zero x δ r h.2] at this
    exact this
  | cross l r hl hr =>
    have := cross_moves (hl h.1) (hr h.2)
    rw [along_zero x δ l h.1, along_zero x δ r h.2] at this
    exact this
  | add l r hl hr => exact (show HasDerivAt _ _ _ from hl h.1).add (hr h.2)
  | sub l r hl hr => exact (show HasDerivAt _ _ _ from hl h.1).sub (hr h.2)
  | subVec l p hl => exact (show HasDerivAt _ _ _ from hl h).sub_const p
  | neg e he => exact (show HasDerivAt _ _ _ from he h).neg
  | smul p s hp hs =>
    have := smul_moves (hp h.1) (hs h.2)
    rw [along_zero x δ p h.1, along_zero x δ s h.2] at this
    exact this
  | cwise l r hl hr =>
    have := cwise_moves (hl h.1) (hr h.2)
    rw [along_zero x δ l h.1, along_zero x δ r h.2] at this
    exact this
  | transl e he =>
    have h0 := along_zero x δ e h
    have := transl_moves (by rw [h0]; exact shape x e h) (he h)
    rw [h0] at this
    exact this
  | rotParams rk e he => exact h.2 _ _ (along_zero x δ e h.1) (he h.1)
  | ofHom e he =>
    have h0 := along_zero x δ e h.1
    have := ofHom_moves (by rw [h0]; exact h.2) (he h.1)
    rw [h0] at this
    exact this
  | scaDv i =>
    have := ((hasDerivAt_id (0 : ℝ)).mul_const (δ (.sca i) 0)).const_add (x.sca i).p
    rw [one_mul] at this
    exact this
  | scaConst s => exact hasDerivAt_const _ _
  | scaMul l r hl hr =>
    have := scaMul_moves (hl h.1) (hr h.2)
    rw [along_zero x δ l h.1, along_zero x δ r h.2] at this
    exact this
  | scaDiv l r hl hr =>
    have h0 := along_zero x δ r h.2.1
    have := scaDiv_moves (hl h.1) (hr h.2.1) (by rw [h0]; exact h.2.2)
    rw [along_zero x δ l h.1, h0] at this
    exact this
  | scaAdd l r m hl hr => exact scaAdd_moves m (hl h.1) (hr h.2)
  | homDv i => exact vderiv_iff.mp (updateQuat_deriv (x.hom i).p (δ (.hom i)))
  | homConst p => exact hasDerivAt_const _ _
  | trHom id l r hl hr =>
    have := trHom_moves (hl h.1) (hr h.2)
    rw [along_zero x δ l h.1, along_zero x δ r h.2] at this
    exact this
  | homOfEuc e he => exact homOfEuc_moves (he h)
  | trBasic C t hC ht =>
    have := trBasic_moves (hC h.1) (ht h.2)
    rw [along_zero x δ t h.2] at this
    exact this
  | trConst T =>
    show TwistVelocity _ _
    rw [twist_iff]
    refine (MDeriv.const T).congr ?_
    have : hat 0 = 0 := by ext i j; fin_cases i <;> fin_cases j <;> simp [hat]
    show 0 = hat 0 * _
    rw [this, zero_mul]
  | trMul id l r hl hr =>
    have h0 := along_zero x δ l h.1
    have := trMul_moves (by rw [h0]; exact shape x l h.1) (hl h.1) (hr h.2)
    rw [h0] at this
    exact this
  | trInv id e he =>
    have h0 := along_zero x δ e h
    have := trInv_moves (by rw [h0]; exact shape x e h) (he h)
    rw [h0] at this
    exact this
  | matDv i cells => exact fun a b => mat_deriv (x.mat i cells) (δ (.mat i cells)) a b
  | leaf L => exact h.2 δ

end Kalibr.Exp
