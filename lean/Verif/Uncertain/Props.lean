import Verif.Uncertain.Lemmas

/-!
# C145: covariances of transformations, homogeneous points and vectors
-/

namespace Kalibr.Unc

open Kalibr.Kin Kalibr.Exp Matrix

theorem inverse_T {A : Trafo} (h : A.Valid) : A.inverse.T = (A.T)⁻¹ :=
  (Matrix.inv_eq_left_inv (C50_matrix_of_inverse A h).1).symm

theorem twist_const (T : M4) : TwistVelocity (fun _ => T) 0 := by
  rw [twist_iff]
  refine (MDeriv.const T).congr ?_
  have : hat 0 = 0 := by ext i j; fin_cases i <;> fin_cases j <;> simp [hat]
  rw [this, zero_mul]

/-! ## Transformations -/

/-- The product of two uncertain transformations has the product of the transformations as its value, and its
covariance is the covariance of the product to first order, when the two are uncorrelated. -/
theorem C145_product (a b : UTrafo) (ha : a.A.Valid) (hb : b.A.Valid) :
    (a.mul b).A = a.A.mul b.A ∧
      Propagates2 trafoMotion trafoMotion trafoMotion Trafo.mul a.A b.A a.U b.U (a.mul b).U := by
  refine ⟨rfl, propagates2 (A := 1) (B := boxTimes a.A.T) (trafo_full _ ha) (trafo_full _ hb) trafo_single ?_ ?_⟩
  · intro c ξ d η hc0 hc hd0 hd
    refine ⟨fun s => (C50_closed _ _ (hc.1 s) (hd.1 s)).1, ?_⟩
    have h := trMul_moves (trafo_rigid (hc.1 0)) hc.2 hd.2
    simp only [C50_matrix_of_product _ _ (hc.1 _) (hd.1 _), Matrix.one_mulVec]
    rw [← hc0]
    exact h
  · simp [UTrafo.mul]

/-- The inverse of an uncertain transformation. -/
theorem C145_inverse (a : UTrafo) (ha : a.A.Valid) :
    a.inverse.A = a.A.inverse ∧ Propagates1 trafoMotion trafoMotion Trafo.inverse a.A a.U a.inverse.U := by
  refine ⟨rfl, propagates1 (A := -boxTimes a.A.inverse.T) (trafo_full _ ha) trafo_single ?_ ?_⟩
  · intro c ξ hc0 hc
    refine ⟨fun s => (C50_closed _ _ (hc.1 s) (hc.1 s)).2.1, ?_⟩
    have h := trInv_moves (trafo_rigid (hc.1 0)) hc.2
    simp only [inverse_T (hc.1 _)]
    rw [inverse_T ha, ← hc0]
    exact h
  · simp [UTrafo.inverse]

/-- The product with a transformation that is certain, on either side. -/
theorem C145_certain_product (a : UTrafo) (B : Trafo) (ha : a.A.Valid) (hB : B.Valid) :
    ((a.mulT B).A = a.A.mul B ∧
      Propagates1 trafoMotion trafoMotion (fun A => A.mul B) a.A a.U (a.mulT B).U) ∧
    (UTrafo.tMul B a).A = B.mul a.A ∧
      Propagates1 trafoMotion trafoMotion (fun A => B.mul A) a.A a.U (UTrafo.tMul B a).U := by
  refine ⟨⟨rfl, propagates1 (A := 1) (trafo_full _ ha) trafo_single ?_ ?_⟩, rfl,
    propagates1 (A := boxTimes B.T) (trafo_full _ ha) trafo_single ?_ ?_⟩
  · intro c ξ hc0 hc
    refine ⟨fun s => (C50_closed _ _ (hc.1 s) hB).1, ?_⟩
    have h := trMul_moves (trafo_rigid (hc.1 0)) hc.2 (twist_const B.T)
    simp only [C50_matrix_of_product _ _ (hc.1 _) hB, Matrix.one_mulVec]
    simpa using h
  · simp [UTrafo.mulT]
  · intro c ξ hc0 hc
    refine ⟨fun s => (C50_closed _ _ hB (hc.1 s)).1, ?_⟩
    have h := trMul_moves (T := fun _ => B.T) (trafo_rigid hB) (twist_const B.T) hc.2
    simp only [C50_matrix_of_product _ _ hB (hc.1 _)]
    simpa using h
  · simp [UTrafo.tMul]

/-- An uncertain transformation applied to an uncertain point, to a certain point, and a certain transformation
applied to an uncertain point. -/
theorem C145_action (a : UTrafo) (p : UPoint) (ha : a.A.Valid) :
    ((a.apply p).p = a.A.applyH p.p ∧
      Propagates2 trafoMotion (vecMotion 4) (vecMotion 4) Trafo.applyH a.A p.p a.U p.U (a.apply p).U) ∧
    ((a.applyP p.p).p = a.A.applyH p.p ∧
      Propagates1 trafoMotion (vecMotion 4) (fun A => A.applyH p.p) a.A a.U (a.applyP p.p).U) ∧
    (UPoint.tApply a.A p).p = a.A.applyH p.p ∧
      Propagates1 (vecMotion 4) (vecMotion 4) (fun x => a.A.applyH x) p.p p.U (UPoint.tApply a.A p).U := by
  have happ (A : Trafo) (hA : A.Valid) (x : V4) : A.applyH x = A.T.mulVec x := (C50_action_is_matrix A hA 0 x).2
  refine ⟨⟨rfl, propagates2 (A := boxMinus (a.A.applyH p.p)) (B := a.A.T) (trafo_full _ ha) (vec_full _)
    (vec_single 4) ?_ rfl⟩, ⟨rfl, propagates1 (A := boxMinus (a.A.applyH p.p)) (trafo_full _ ha) (vec_single 4) ?_ rfl⟩,
    rfl, propagates1 (A := a.A.T) (vec_full _) (vec_single 4) ?_ rfl⟩
  · intro c ξ d η hc0 hc hd0 hd
    have h := trHom_moves hc.2 hd
    simp only [vecMotion, happ _ (hc.1 _), happ _ ha]
    rw [hc0, hd0] at h
    exact h
  · intro c ξ hc0 hc
    have h := trHom_moves hc.2 (hasDerivAt_const (0 : ℝ) p.p)
    simp only [vecMotion, happ _ (hc.1 _), happ _ ha]
    rw [hc0] at h
    simpa using h
  · intro d η hd0 hd
    have h := trHom_moves (twist_const a.A.T) hd
    simp only [vecMotion, happ _ ha]
    simpa using h

/-- A curve of transformations through a valid one, and random vectors with a given covariance, exist, so that the
theorems are not about nothing. -/
example : (⟨![3 / 5, 0, 0, 4 / 5], ![1, 2, 3]⟩ : Trafo).Valid ∧
    ∃ c, c 0 = (⟨![3 / 5, 0, 0, 4 / 5], ![1, 2, 3]⟩ : Trafo) ∧ trafoMotion c ![1, 2, 3, 4, 5, 6] := by
  have h : (⟨![3 / 5, 0, 0, 4 / 5], ![1, 2, 3]⟩ : Trafo).Valid := by simp [Trafo.Valid, Unit4]; norm_num
  exact ⟨h, trafo_full _ h _⟩

/-! ### Laws of the algebra -/

theorem boxTimes_mul {S T : M4} (hS : Rigid S) (hT : Rigid T) : boxTimes (S * T) = boxTimes S * boxTimes T := by
  obtain ⟨C, hC, t, rfl⟩ := hS
  obtain ⟨D, hD, u, rfl⟩ := hT
  refine mulVec_inj fun ξ => ?_
  have h1 := boxTimes_hat hC t ((boxTimes (rt2Transform D u)).mulVec ξ)
  have h2 := boxTimes_hat hD u ξ
  have h3 := boxTimes_hat (SO3.mul_mem hC hD) (C.mulVec u + t) ξ
  rw [← rt2Transform_mul] at h3
  have e : hat ((boxTimes (rt2Transform C t * rt2Transform D u)).mulVec ξ) * (rt2Transform C t * rt2Transform D u) =
      hat ((boxTimes (rt2Transform C t) * boxTimes (rt2Transform D u)).mulVec ξ) *
        (rt2Transform C t * rt2Transform D u) := by
    rw [h3, ← Matrix.mulVec_mulVec, ← mul_assoc (hat _), h1, mul_assoc, mul_assoc, h2]
  obtain ⟨v, hv⟩ := (rt_unit hC t).mul (rt_unit hD u)
  have e2 := congrArg (· * (v⁻¹ : M4ˣ).val) e
  simp only [mul_assoc] at e2
  rw [← mul_assoc (rt2Transform C t), ← hv] at e2
  simp only [Units.mul_inv, mul_one] at e2
  rw [hv] at e2
  have f (i j : Fin 4) := congrFun (congrFun e2 i) j
  funext i
  fin_cases i
  · simpa [hat] using f 0 3
  · simpa [hat] using f 1 3
  · simpa [hat] using f 2 3
  · simpa [hat] using f 1 2
  · simpa [hat] using f 2 0
  · simpa [hat] using f 0 1

theorem boxTimes_one : boxTimes 1 = 1 := by
  ext i j
  fin_cases i <;> fin_cases j <;>
    simp [boxTimes, blocks6, transform2C, transform2rho, crossMx, Matrix.mul_apply, Fin.sum_univ_three]

theorem boxTimes_inverse {A : Trafo} (h : A.Valid) : boxTimes A.T * boxTimes A.inverse.T = 1 ∧
    boxTimes A.inverse.T * boxTimes A.T = 1 := by
  have hi := (C50_closed A A h h).2.1
  rw [← boxTimes_mul (trafo_rigid h) (trafo_rigid hi), ← boxTimes_mul (trafo_rigid hi) (trafo_rigid h),
    (C50_matrix_of_inverse A h).1, (C50_matrix_of_inverse A h).2.1, boxTimes_one]
  exact ⟨rfl, rfl⟩

theorem mul_sandwich {n : ℕ} (A B U : Matrix (Fin n) (Fin n) ℝ) : A * (B * U * Bᵀ) * Aᵀ = (A * B) * U * (A * B)ᵀ := by
  rw [Matrix.transpose_mul]; simp only [mul_assoc]

/-- Uncertain transformations: the product is associative, also in the covariance, the identity without uncertainty
is neutral on both sides, inverting twice gives the same object back, and the inverse of a product is the product of
the inverses in reverse order. -/
theorem C145_group_laws (a b d : UTrafo) (ha : a.A.Valid) (hb : b.A.Valid) (hd : d.A.Valid) :
    (a.mul b).mul d = a.mul (b.mul d) ∧ a.mul (.certain .one) = a ∧ (UTrafo.certain .one).mul a = a ∧
      a.inverse.inverse = a ∧ (a.mul b).inverse = b.inverse.mul a.inverse := by
  obtain ⟨h1, h2, h3, -, -⟩ := C50_group_laws a.A b.A d.A ha hb hd
  have hia := (C50_closed a.A a.A ha ha).2.1
  have hib := (C50_closed b.A b.A hb hb).2.1
  have hab := (C50_closed a.A b.A ha hb).1
  have hii : a.A.inverse.inverse = a.A := by
    obtain ⟨g1, g2, -, g4, g5⟩ := C50_group_laws a.A a.A.inverse a.A.inverse.inverse ha hia
      (C50_closed _ _ hia hia).2.1
    obtain ⟨-, -, k3, k4, -⟩ := C50_group_laws a.A.inverse a.A a.A hia ha ha
    obtain ⟨-, -, m3, -, -⟩ := C50_group_laws a.A.inverse.inverse a.A a.A (C50_closed _ _ hia hia).2.1 ha ha
    rw [g4, m3, k4, g2] at g1
    exact g1
  have hprod : (a.A.mul b.A).inverse = b.A.inverse.mul a.A.inverse := by
    have hi := (C50_closed _ _ hab hab).2.1
    have hba := (C50_closed _ _ hib hia).1
    obtain ⟨g1, g2, -, -, g5⟩ := C50_group_laws (a.A.mul b.A).inverse (a.A.mul b.A) (b.A.inverse.mul a.A.inverse) hi hab hba
    obtain ⟨-, -, -, -, j5⟩ := C50_group_laws (a.A.mul b.A) (a.A.mul b.A) (a.A.mul b.A) hab hab hab
    have e : (a.A.mul b.A).mul (b.A.inverse.mul a.A.inverse) = .one := by
      obtain ⟨k1, -, -, k4, -⟩ := C50_group_laws a.A b.A (b.A.inverse.mul a.A.inverse) ha hb hba
      obtain ⟨l1, -, -, l4, -⟩ := C50_group_laws b.A b.A.inverse a.A.inverse hb hib hia
      obtain ⟨-, -, m3, -, -⟩ := C50_group_laws a.A.inverse a.A a.A hia ha ha
      rw [k1, ← l1, l4, m3, k4]
    obtain ⟨-, -, n3, -, -⟩ := C50_group_laws (b.A.inverse.mul a.A.inverse) a.A a.A hba ha ha
    rw [j5, e, n3, g2] at g1
    exact g1.symm
  have b1 := boxTimes_mul (trafo_rigid ha) (trafo_rigid hb)
  rw [← C50_matrix_of_product _ _ ha hb] at b1
  have b2 := boxTimes_mul (trafo_rigid hib) (trafo_rigid hia)
  rw [← C50_matrix_of_product _ _ hib hia] at b2
  have ia := boxTimes_inverse ha
  have iia := boxTimes_inverse hia
  obtain ⟨aA, aU⟩ := a
  obtain ⟨bA, bU⟩ := b
  obtain ⟨dA, dU⟩ := d
  simp only [UTrafo.mul, UTrafo.inverse, UTrafo.certain, UTrafo.mk.injEq] at *
  refine ⟨⟨h1, ?_⟩, ⟨h2, by simp⟩, ⟨h3, ?_⟩, ⟨hii, ?_⟩, hprod, ?_⟩
  · rw [b1, mul_add, add_mul, mul_sandwich, add_assoc]
  · rw [C50_matrix_of_identity, boxTimes_one]; simp
  · rw [mul_sandwich, hii, ia.1]; simp
  · rw [hprod, b2, mul_add, add_mul, mul_sandwich, mul_sandwich, mul_assoc (boxTimes bA.inverse.T) (boxTimes aA.inverse.T)
      (boxTimes aA.T), ia.2, mul_one, add_comm]

/-! ### The form that belongs to the update of the optimizer -/

theorem oplusS_mul (t u : V3) : oplusS t * oplusS u = oplusS (t + u) := by
  ext i j
  fin_cases i <;> fin_cases j <;>
    simp [oplusS, blocks6, crossMx, Matrix.mul_apply, Fin.sum_univ_succ, Matrix.one_apply] <;> ring

theorem oplusS_zero : oplusS 0 = 1 := by
  ext i j
  fin_cases i <;> fin_cases j <;> simp [oplusS, blocks6, crossMx, Matrix.one_apply]

theorem oplusS_inv (t : V3) : (oplusS t)⁻¹ = oplusS (-t) := by
  apply Matrix.inv_eq_left_inv
  rw [oplusS_mul, neg_add_cancel, oplusS_zero]

/-- `setUOplus` and `UOplus` are inverse to each other, and `setUOplus` stores the covariance of the transformation
when the update given to `oplus` has the given covariance: along every update the transformation moves by one matrix
`S` times the update, and the stored matrix is the covariance of `S` times the update. -/
theorem C145_oplus (a : UTrafo) (W : M6) :
    (a.setUOplus W).UOplus = W ∧ a.setUOplus a.UOplus = a ∧ (a.setUOplus W).A = a.A ∧
    ∃ S : M6, (∀ dt : Fin 6 → ℝ, TwistVelocity (fun s : ℝ => (a.A.oplus (s • dt)).T) (S.mulVec dt)) ∧
      ∀ (H : Type) [NormedAddCommGroup H] [InnerProductSpace ℝ H] (δ : Fin 6 → H), Cov δ = W →
        Cov (act S δ) = (a.setUOplus W).U := by
  have h1 : oplusS (-a.A.t) * oplusS a.A.t = 1 := by rw [oplusS_mul, neg_add_cancel, oplusS_zero]
  have h2 : oplusS a.A.t * oplusS (-a.A.t) = 1 := by rw [oplusS_mul, add_neg_cancel, oplusS_zero]
  refine ⟨?_, ?_, rfl, oplusS a.A.t, fun dt => ?_, fun H _ _ δ hδ => ?_⟩
  · simp only [UTrafo.UOplus, UTrafo.setUOplus]
    rw [← Matrix.transpose_nonsing_inv, oplusS_inv, mul_sandwich, h1]; simp
  · obtain ⟨A, U⟩ := a
    simp only [UTrafo.UOplus, UTrafo.setUOplus, UTrafo.mk.injEq, true_and] at *
    rw [← Matrix.transpose_nonsing_inv, oplusS_inv, mul_sandwich, h2]; simp
  · unfold Trafo.T Trafo.oplus
    have hr := rot_deriv a.A.q ![dt 3, dt 4, dt 5]
    have ht : HasDerivAt (fun s : ℝ => a.A.t + s • (![dt 0, dt 1, dt 2] : V3)) ![dt 0, dt 1, dt 2] 0 := by
      have := ((hasDerivAt_id (0 : ℝ)).smul_const (![dt 0, dt 1, dt 2] : V3)).const_add a.A.t
      simpa using this
    have h := trBasic_moves hr ht
    have e : (jBasicRot (a.A.t + (0 : ℝ) • (![dt 0, dt 1, dt 2] : V3))).mulVec ![dt 3, dt 4, dt 5] +
        jBasicTransl.mulVec ![dt 0, dt 1, dt 2] = (oplusS a.A.t).mulVec dt := by
      rw [zero_smul, add_zero]
      funext i
      fin_cases i <;>
        simp [jBasicRot, jBasicTransl, oplusS, blocks6, crossMx, Matrix.mulVec, dotProduct, Fin.sum_univ_succ,
          Matrix.one_apply] <;> ring
    rw [e] at h
    have e1 (s : ℝ) : (![(s • dt) 3, (s • dt) 4, (s • dt) 5] : V3) = s • ![dt 3, dt 4, dt 5] := by
      apply ext3 <;> simp
    have e2 (s : ℝ) : (![(s • dt) 0, (s • dt) 1, (s • dt) 2] : V3) = s • ![dt 0, dt 1, dt 2] := by
      apply ext3 <;> simp
    simp only [e1, e2]
    exact h
  · rw [cov_act, hδ]; rfl

end Kalibr.Unc
