import Verif.Uncertain.Props
import Verif.Kinematics.SMatrix

/-!
# C145: homogeneous points
-/

namespace Kalibr.Unc

open Kalibr.Kin Kalibr.Exp Matrix

theorem add_deriv {c d : ℝ → V4} {ξ η : V4} (hc : HasDerivAt c ξ 0) (hd : HasDerivAt d η 0) :
    HasDerivAt (fun s => pointAdd (c s) (d s))
      ((toHomogeneousPlus (d 0)).mulVec ξ + (toHomogeneousPlus (c 0)).mulVec η) 0 := by
  rw [← vderiv_iff] at *
  intro i
  fin_cases i
  · refine (((hc 0).mul (hd 3)).add ((hd 0).mul (hc 3))).congr_deriv ?_
    simp [toHomogeneousPlus, Matrix.mulVec, dotProduct, Fin.sum_univ_succ]; ring
  · refine (((hc 1).mul (hd 3)).add ((hd 1).mul (hc 3))).congr_deriv ?_
    simp [toHomogeneousPlus, Matrix.mulVec, dotProduct, Fin.sum_univ_succ]; ring
  · refine (((hc 2).mul (hd 3)).add ((hd 2).mul (hc 3))).congr_deriv ?_
    simp [toHomogeneousPlus, Matrix.mulVec, dotProduct, Fin.sum_univ_succ]; ring
  · refine ((hc 3).mul (hd 3)).congr_deriv ?_
    simp [toHomogeneousPlus, Matrix.mulVec, dotProduct, Fin.sum_univ_succ]; ring

/-- The derivative of the difference of two points in its second argument. -/
def subRight (p : V4) : M4 :=
  !![-p 3, 0, 0, p 0;
     0, -p 3, 0, p 1;
     0, 0, -p 3, p 2;
     0, 0, 0, p 3]

theorem sub_deriv {c d : ℝ → V4} {ξ η : V4} (hc : HasDerivAt c ξ 0) (hd : HasDerivAt d η 0) :
    HasDerivAt (fun s => pointSub (c s) (d s))
      ((toHomogeneousMinus (d 0)).mulVec ξ + (subRight (c 0)).mulVec η) 0 := by
  rw [← vderiv_iff] at *
  intro i
  fin_cases i
  · refine (((hc 0).mul (hd 3)).sub ((hd 0).mul (hc 3))).congr_deriv ?_
    simp [toHomogeneousMinus, subRight, Matrix.mulVec, dotProduct, Fin.sum_univ_succ]; ring
  · refine (((hc 1).mul (hd 3)).sub ((hd 1).mul (hc 3))).congr_deriv ?_
    simp [toHomogeneousMinus, subRight, Matrix.mulVec, dotProduct, Fin.sum_univ_succ]; ring
  · refine (((hc 2).mul (hd 3)).sub ((hd 2).mul (hc 3))).congr_deriv ?_
    simp [toHomogeneousMinus, subRight, Matrix.mulVec, dotProduct, Fin.sum_univ_succ]; ring
  · refine ((hc 3).mul (hd 3)).congr_deriv ?_
    simp [toHomogeneousMinus, subRight, Matrix.mulVec, dotProduct, Fin.sum_univ_succ]; ring

/-- Sums and differences of homogeneous points that are not at infinity are the sums and differences of the points
they stand for; the matrices of `toHomogeneousPlus` and `toHomogeneousMinus` add and subtract a point. -/
theorem C145_point_arithmetic (p r : V4) (hp : p 3 ≠ 0) (hr : r 3 ≠ 0) :
    toEuclidean (pointAdd p r) = toEuclidean p + toEuclidean r ∧
      toEuclidean (pointSub p r) = toEuclidean p - toEuclidean r ∧
      pointAdd p r 3 ≠ 0 ∧ pointSub p r 3 ≠ 0 ∧
      toEuclidean ((toHomogeneousPlus p).mulVec r) = toEuclidean p + toEuclidean r ∧
      toEuclidean ((toHomogeneousMinus p).mulVec r) = toEuclidean r - toEuclidean p ∧
      toEuclidean (toHomogeneous (toEuclidean p)) = toEuclidean p ∧ fromHomogeneous p = toEuclidean p ∧
      ∀ s, toEuclidean (pointScale p s) = s • toEuclidean p := by
  refine ⟨?_, ?_, mul_ne_zero hp hr, mul_ne_zero hp hr, ?_, ?_, ?_, rfl, fun s => ?_⟩
  · apply ext3 <;> simp [toEuclidean, pointAdd] <;> field_simp
  · apply ext3 <;> simp [toEuclidean, pointSub] <;> field_simp
  · apply ext3 <;> simp [toEuclidean, toHomogeneousPlus, Matrix.mulVec, dotProduct, Fin.sum_univ_succ] <;>
      field_simp <;> ring
  · apply ext3 <;> simp [toEuclidean, toHomogeneousMinus, Matrix.mulVec, dotProduct, Fin.sum_univ_succ] <;>
      field_simp <;> ring
  · apply ext3 <;> simp [toEuclidean, toHomogeneous]
  · apply ext3 <;> simp [toEuclidean, pointScale] <;> ring

/-- The sum of two uncertain homogeneous points. -/
theorem C145_point_sum (a b : UPoint) : (a.add b).p = pointAdd a.p b.p ∧
    Propagates2 (vecMotion 4) (vecMotion 4) (vecMotion 4) pointAdd a.p b.p a.U b.U (a.add b).U := by
  refine ⟨rfl, propagates2 (A := toHomogeneousPlus b.p) (B := toHomogeneousPlus a.p) (vec_full _) (vec_full _)
    (vec_single 4) ?_ rfl⟩
  intro c ξ d η hc0 hc hd0 hd
  rw [← hc0, ← hd0]
  exact add_deriv hc hd

/-- The fourth coordinate of a point is certain. -/
def Scaled (U : M4) : Prop := ∀ i, U i 3 = 0 ∧ U 3 i = 0

/-- The difference of two uncertain homogeneous points whose fourth coordinates are certain.  Missing for the full
claim: points whose fourth coordinates are uncertain, where the result is wrong
(`C145_point_difference_counterexample`). -/
theorem C145_point_difference_partial (a b : UPoint) (ha : Scaled a.U) (hb : Scaled b.U) :
    (a.sub b).p = pointSub a.p b.p ∧
    Propagates2 (vecMotion 4) (vecMotion 4) (vecMotion 4) pointSub a.p b.p a.U b.U (a.sub b).U := by
  refine ⟨rfl, propagates2 (A := toHomogeneousMinus b.p) (B := subRight a.p) (vec_full _) (vec_full _)
    (vec_single 4) ?_ ?_⟩
  · intro c ξ d η hc0 hc hd0 hd
    rw [← hc0, ← hd0]
    exact sub_deriv hc hd
  · unfold Scaled at ha hb
    have e1 : toHomogeneousPlus b.p * a.U = toHomogeneousMinus b.p * a.U := by
      ext i j
      fin_cases i <;>
        simp [toHomogeneousPlus, toHomogeneousMinus, Matrix.mul_apply, Fin.sum_univ_succ, (ha j).2]
    have e2 : a.U * (toHomogeneousPlus b.p)ᵀ = a.U * (toHomogeneousMinus b.p)ᵀ := by
      ext i j
      fin_cases j <;>
        simp [toHomogeneousPlus, toHomogeneousMinus, Matrix.mul_apply, Fin.sum_univ_succ, (ha i).1]
    have e3 : toHomogeneousPlus a.p * b.U = -(subRight a.p * b.U) := by
      ext i j
      fin_cases i <;>
        simp [toHomogeneousPlus, subRight, Matrix.mul_apply, Matrix.vecMul, dotProduct, Fin.sum_univ_succ, (hb j).2]
    have e4 : b.U * (toHomogeneousPlus a.p)ᵀ = -(b.U * (subRight a.p)ᵀ) := by
      ext i j
      fin_cases j <;>
        simp [toHomogeneousPlus, subRight, Matrix.mul_apply, Matrix.vecMul, dotProduct, Fin.sum_univ_succ, (hb i).1]
    simp only [UPoint.sub]
    rw [e1, mul_assoc, e2, e3, neg_mul, mul_assoc, e4, mul_neg, neg_neg, mul_assoc, mul_assoc]

/-- The sum and the difference of an uncertain and a certain homogeneous point, when the fourth coordinate of the
uncertain one is certain and that of the certain one is one.  Missing for the full claim: all other points, where the
result is wrong (`C145_certain_point_counterexample`). -/
theorem C145_certain_point_partial (a : UPoint) (r : V4) (ha : Scaled a.U) (hr : r 3 = 1) :
    ((a.addP r).p = pointAdd a.p r ∧
      Propagates1 (vecMotion 4) (vecMotion 4) (fun x => pointAdd x r) a.p a.U (a.addP r).U) ∧
    ((a.subP r).p = pointSub a.p r ∧
      Propagates1 (vecMotion 4) (vecMotion 4) (fun x => pointSub x r) a.p a.U (a.subP r).U) ∧
    ((UPoint.pAdd r a).p = pointAdd r a.p ∧
      Propagates1 (vecMotion 4) (vecMotion 4) (fun x => pointAdd r x) a.p a.U (UPoint.pAdd r a).U) ∧
    (UPoint.pSub r a).p = pointSub r a.p ∧
      Propagates1 (vecMotion 4) (vecMotion 4) (fun x => pointSub r x) a.p a.U (UPoint.pSub r a).U := by
  have hk : HasDerivAt (fun _ : ℝ => r) 0 0 := hasDerivAt_const 0 r
  unfold Scaled at ha
  have key (J : M4) (σ : ℝ) (hσ : σ * σ = 1) (h : ∀ i j : Fin 4, j ≠ 3 → J i j = if i = j then σ else 0) :
      a.U = J * a.U * Jᵀ := by
    have e1 : J * a.U = σ • a.U := by
      ext i j
      rw [Matrix.mul_apply, Fin.sum_univ_four, h i 0 (by decide), h i 1 (by decide), h i 2 (by decide), (ha j).2]
      fin_cases i <;> simp [(ha j).2]
    have e2 : a.U * Jᵀ = σ • a.U := by
      ext i j
      rw [Matrix.mul_apply, Fin.sum_univ_four]
      simp only [Matrix.transpose_apply]
      rw [h j 0 (by decide), h j 1 (by decide), h j 2 (by decide), (ha i).1]
      fin_cases j <;> simp [(ha i).1, mul_comm]
    rw [e1, Matrix.smul_mul, e2, smul_smul, hσ, one_smul]
  refine ⟨⟨rfl, propagates1 (A := toHomogeneousPlus r) (vec_full _) (vec_single 4) ?_ ?_⟩,
    ⟨rfl, propagates1 (A := toHomogeneousMinus r) (vec_full _) (vec_single 4) ?_ ?_⟩,
    ⟨rfl, propagates1 (A := toHomogeneousPlus r) (vec_full _) (vec_single 4) ?_ ?_⟩,
    rfl, propagates1 (A := subRight r) (vec_full _) (vec_single 4) ?_ ?_⟩
  · intro c ξ hc0 hc
    simpa [vecMotion] using add_deriv hc hk
  · refine key _ 1 (by norm_num) fun i j hj => ?_
    fin_cases i <;> fin_cases j <;> simp [toHomogeneousPlus, hr] at hj ⊢
  · intro c ξ hc0 hc
    simpa [vecMotion] using sub_deriv hc hk
  · refine key _ 1 (by norm_num) fun i j hj => ?_
    fin_cases i <;> fin_cases j <;> simp [toHomogeneousMinus, hr] at hj ⊢
  · intro c ξ hc0 hc
    simpa [vecMotion] using add_deriv hk hc
  · refine key _ 1 (by norm_num) fun i j hj => ?_
    fin_cases i <;> fin_cases j <;> simp [toHomogeneousPlus, hr] at hj ⊢
  · intro c ξ hc0 hc
    simpa [vecMotion] using sub_deriv hk hc
  · refine key _ (-1) (by norm_num) fun i j hj => ?_
    fin_cases i <;> fin_cases j <;> simp [subRight, hr] at hj ⊢

/-- A point with an uncertain Euclidean position has a certain fourth coordinate. -/
example (p : V3) (U : M3) : Scaled (UPoint.ofEuclidean p U).U := by
  intro i; fin_cases i <;> simp [UPoint.ofEuclidean, corner]

/-- The uncertain point `(1,0,0,1)` whose fourth coordinate is uncertain, minus itself measured independently: the
result has no uncertainty in the terms that should have the largest. -/
theorem C145_point_difference_counterexample : ∃ a b : UPoint, a.U.PosSemidef ∧ b.U.PosSemidef ∧ a.p 3 = 1 ∧
    b.p 3 = 1 ∧
    ¬ Propagates2 (vecMotion 4) (vecMotion 4) (vecMotion 4) pointSub a.p b.p a.U b.U (a.sub b).U := by
  have hd : (Matrix.diagonal ![1, 0, 0, 0] + vecMulVec ![(1 : ℝ), 0, 0, 1] ![1, 0, 0, 1] : M4).PosSemidef := by
    refine Matrix.PosSemidef.add (Matrix.PosSemidef.diagonal fun i => ?_) ?_
    · fin_cases i <;> simp
    · simpa using Matrix.posSemidef_vecMulVec_self_star (![(1 : ℝ), 0, 0, 1])
  obtain ⟨a, ha⟩ : ∃ a : UPoint, a = ⟨![1, 0, 0, 1],
    Matrix.diagonal ![1, 0, 0, 0] + vecMulVec ![(1 : ℝ), 0, 0, 1] ![1, 0, 0, 1]⟩ := ⟨_, rfl⟩
  refine ⟨a, ⟨![1, 0, 0, 1], 0⟩, by rw [ha]; exact hd, Matrix.PosSemidef.zero, by rw [ha]; simp, by simp,
    fun h => ?_⟩
  obtain ⟨r, q, δ, ε, h1, h2, h3⟩ := cov_exists2 a.U 0 (by rw [ha]; exact hd) Matrix.PosSemidef.zero
  have hA : Deriv2 (vecMotion 4) (vecMotion 4) (vecMotion 4) pointSub a.p ![1, 0, 0, 1]
      (toHomogeneousMinus ![1, 0, 0, 1]) (subRight a.p) := by
    intro c ξ d η hc0 hc hd0 hd
    rw [← hc0, ← hd0]
    exact sub_deriv hc hd
  have := h.cov _ _ hA _ δ ε h1 h2 h3
  rw [cov_add _ _ _ _ h3, h1, h2] at this
  have h00 := congrFun (congrFun this 0) 0
  rw [ha] at h00
  simp [UPoint.sub, toHomogeneousPlus, toHomogeneousMinus, Matrix.mul_apply, Fin.sum_univ_succ, vecMulVec_apply,
    Matrix.vecMul, dotProduct] at h00
  norm_num at h00

/-- Adding the certain point `(0,0,0,2)`, which is the origin, to an uncertain point doubles its coordinates, but the
covariance stays what it was. -/
theorem C145_certain_point_counterexample : ∃ (a : UPoint) (r : V4), a.U.PosSemidef ∧ Scaled a.U ∧ a.p 3 = 1 ∧
    toEuclidean r = 0 ∧ r 3 ≠ 0 ∧
    ¬ Propagates1 (vecMotion 4) (vecMotion 4) (fun x => pointAdd x r) a.p a.U (a.addP r).U ∧
    ¬ Propagates1 (vecMotion 4) (vecMotion 4) (fun x => pointSub x r) a.p a.U (a.subP r).U ∧
    ¬ Propagates1 (vecMotion 4) (vecMotion 4) (fun x => pointAdd r x) a.p a.U (UPoint.pAdd r a).U ∧
    ¬ Propagates1 (vecMotion 4) (vecMotion 4) (fun x => pointSub r x) a.p a.U (UPoint.pSub r a).U := by
  have hd : (Matrix.diagonal ![1, 0, 0, 0] : M4).PosSemidef := by
    refine Matrix.PosSemidef.diagonal fun i => ?_
    fin_cases i <;> simp
  have hk : HasDerivAt (fun _ : ℝ => (![0, 0, 0, 2] : V4)) 0 0 := hasDerivAt_const 0 _
  obtain ⟨n, δ, h1⟩ := cov_exists _ hd
  refine ⟨⟨![0, 0, 0, 1], Matrix.diagonal ![1, 0, 0, 0]⟩, ![0, 0, 0, 2], hd, ?_, by simp, ?_, by simp, ?_, ?_, ?_, ?_⟩
  · intro i; fin_cases i <;> simp [Matrix.diagonal]
  · apply ext3 <;> simp [toEuclidean]
  · intro h
    have := h.cov (toHomogeneousPlus ![0, 0, 0, 2]) (fun c ξ hc0 hc => by simpa [vecMotion] using add_deriv hc hk) _ δ h1
    rw [cov_act, h1] at this
    have h00 := congrFun (congrFun this 0) 0
    simp [UPoint.addP, toHomogeneousPlus, Matrix.mul_apply, Fin.sum_univ_succ, Matrix.vecMul, dotProduct] at h00
    norm_num at h00
  · intro h
    have := h.cov (toHomogeneousMinus ![0, 0, 0, 2]) (fun c ξ hc0 hc => by simpa [vecMotion] using sub_deriv hc hk) _ δ h1
    rw [cov_act, h1] at this
    have h00 := congrFun (congrFun this 0) 0
    simp [UPoint.subP, toHomogeneousMinus, Matrix.mul_apply, Fin.sum_univ_succ, Matrix.vecMul, dotProduct] at h00
    norm_num at h00
  · intro h
    have := h.cov (toHomogeneousPlus ![0, 0, 0, 2]) (fun c ξ hc0 hc => by simpa [vecMotion] using add_deriv hk hc) _ δ h1
    rw [cov_act, h1] at this
    have h00 := congrFun (congrFun this 0) 0
    simp [UPoint.pAdd, toHomogeneousPlus, Matrix.mul_apply, Fin.sum_univ_succ, Matrix.vecMul, dotProduct] at h00
    norm_num at h00
  · intro h
    have := h.cov (subRight ![0, 0, 0, 2]) (fun c ξ hc0 hc => by simpa [vecMotion] using sub_deriv hk hc) _ δ h1
    rw [cov_act, h1] at this
    have h00 := congrFun (congrFun this 0) 0
    simp [UPoint.pSub, subRight, Matrix.mul_apply, Fin.sum_univ_succ, Matrix.vecMul, dotProduct] at h00
    norm_num at h00

/-- The Euclidean covariance of a homogeneous point that is not at infinity is the covariance of the Euclidean point
to first order, and a point made from a Euclidean point and covariance returns them. -/
theorem C145_euclidean (a : UPoint) (h : a.p 3 ≠ 0) :
    Propagates1 (vecMotion 4) (vecMotion 3) toEuclidean a.p a.U a.U3 ∧
    ∀ p U, (UPoint.ofEuclidean p U).U3 = U ∧ toEuclidean (UPoint.ofEuclidean p U).p = p := by
  refine ⟨propagates1 (A := fromHomogeneousJacobian a.p) (vec_full _) (vec_single 3) ?_ rfl, fun p U => ⟨?_, ?_⟩⟩
  · intro c ξ hc0 hc
    rw [← hc0]
    exact ofHom_moves (by rw [hc0]; exact h) hc
  · ext i j
    fin_cases i <;> fin_cases j <;>
      simp [UPoint.U3, UPoint.ofEuclidean, corner, fromHomogeneousJacobian, fromHomogeneous, Matrix.mul_apply,
        Fin.sum_univ_succ]
  · apply ext3 <;> simp [toEuclidean, UPoint.ofEuclidean]

/-! ## The update of a homogeneous point -/

/-- The Jacobians that a homogeneous point returns are the derivatives of its coordinates, and of its Euclidean
coordinates, along every update. -/
theorem C145_point_jacobians (p : V4) (d : V3) :
    HasDerivAt (fun s : ℝ => pointOplus p (s • d)) ((homogeneousJ p).mulVec d) 0 ∧
    (p 3 ≠ 0 → HasDerivAt (fun s : ℝ => toEuclidean (pointOplus p (s • d))) ((euclideanJ p).mulVec d) 0) := by
  have e : homogeneousJ p = quatInvS p := by
    ext i j
    fin_cases i <;> fin_cases j <;> simp [homogeneousJ, quatInvS] <;> ring
  have h1 : HasDerivAt (fun s : ℝ => pointOplus p (s • d)) ((homogeneousJ p).mulVec d) 0 := by
    rw [e, ← vderiv_iff]
    exact updateQuat_deriv p d
  refine ⟨h1, fun hp => ?_⟩
  have e0 : pointOplus p ((0 : ℝ) • d) = p := by rw [zero_smul]; exact updateQuat_zero p
  have h2 := ofHom_moves (p := fun s : ℝ => pointOplus p (s • d)) (by rw [e0]; exact hp) h1
  rw [e0, Matrix.mulVec_mulVec] at h2
  exact h2

/-- For a point on the unit sphere the two conversions between the covariance of the update and that of the point
succeed; setting and reading back gives the same matrix, the point does not change, and what is stored is the
covariance of the point when the update has the given covariance.  Away from the unit sphere both throw. -/
theorem C145_point_oplus (a : UPoint) (W : M3) :
    (Unit4 a.p → ∃ b, a.setUOplus W = .ok b ∧ b.p = a.p ∧ b.Uav = .ok W ∧
      ∃ J : Matrix (Fin 4) (Fin 3) ℝ, (∀ d : V3, HasDerivAt (fun s : ℝ => pointOplus a.p (s • d)) (J.mulVec d) 0) ∧
        ∀ (H : Type) [NormedAddCommGroup H] [InnerProductSpace ℝ H] (δ : Fin 3 → H), Cov δ = W →
          Cov (act J δ) = b.U) ∧
    (1 / 10 ^ 6 < |norm4 a.p - 1| → a.setUOplus W = .raise ∧ a.Uav = .raise) := by
  refine ⟨fun h => ?_, fun h => ⟨if_neg (not_le.mpr h), if_neg (not_le.mpr h)⟩⟩
  have hn : |norm4 a.p - 1| ≤ 1 / 10 ^ 6 := by
    unfold norm4
    unfold Unit4 at h
    rw [h]; norm_num
  refine ⟨{ a with U := quatInvS a.p * W * (quatInvS a.p)ᵀ }, if_pos hn, rfl, ?_, quatInvS a.p, fun d => ?_,
    fun H _ _ δ hδ => by rw [cov_act, hδ]⟩
  · unfold UPoint.Uav
    rw [if_pos hn]
    simp only
    congr 1
    have h1 := (C83_quaternion_inverse a.p h).1
    calc quatS a.p * (quatInvS a.p * W * (quatInvS a.p)ᵀ) * (quatS a.p)ᵀ
        = (quatS a.p * quatInvS a.p) * W * (quatS a.p * quatInvS a.p)ᵀ := by
          rw [Matrix.transpose_mul]; simp only [Matrix.mul_assoc]
      _ = W := by rw [h1]; simp
  · rw [← vderiv_iff]
    exact updateQuat_deriv a.p d

/-- A point on the unit sphere. -/
example : Unit4 ![1 / 2, 1 / 2, 1 / 2, 1 / 2] := by simp [Unit4]; norm_num

end Kalibr.Unc
