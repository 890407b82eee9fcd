import Verif.Uncertain.Points

/-!
# C145: uncertain vectors and numbers
-/

namespace Kalibr.Unc

open Kalibr.Kin Kalibr.Exp Matrix

variable {n : ℕ}

theorem vnorm_pos {v : Fin n → ℝ} (h : v ≠ 0) : 0 < vnorm v := by
  unfold vnorm
  apply Real.sqrt_pos.mpr
  obtain ⟨i, hi⟩ := Function.ne_iff.mp h
  refine Finset.sum_pos' (fun j _ => mul_self_nonneg _) ⟨i, Finset.mem_univ i, ?_⟩
  exact mul_self_pos.mpr hi

theorem vnorm_sq (v : Fin n → ℝ) : vnorm v * vnorm v = ∑ i, v i * v i :=
  Real.mul_self_sqrt (Finset.sum_nonneg fun i _ => mul_self_nonneg _)

theorem normalize_deriv {c : ℝ → Fin n → ℝ} {ξ : Fin n → ℝ} (hc : HasDerivAt c ξ 0) (h0 : c 0 ≠ 0) :
    HasDerivAt (fun s => normalizeV (c s)) ((normalizeJ (c 0)).mulVec ξ) 0 := by
  rw [← vderiv_iff] at *
  have hp := vnorm_pos h0
  have hne : (∑ i, c 0 i * c 0 i) ≠ 0 := by rw [← vnorm_sq]; positivity
  have hs : HasDerivAt (fun s => ∑ i, c s i * c s i) (∑ i, (ξ i * c 0 i + c 0 i * ξ i)) 0 :=
    HasDerivAt.fun_sum fun i _ => (hc i).mul (hc i)
  have hn : HasDerivAt (fun s => vnorm (c s)) ((∑ i, (ξ i * c 0 i + c 0 i * ξ i)) / (2 * vnorm (c 0))) 0 :=
    hs.sqrt hne
  have hi : HasDerivAt (fun s => 1 / vnorm (c s))
      (-((∑ i, (ξ i * c 0 i + c 0 i * ξ i)) / (2 * vnorm (c 0))) / vnorm (c 0) ^ 2) 0 := by
    simpa [one_div] using hn.fun_inv hp.ne'
  intro i
  refine ((hc i).mul hi).congr_deriv ?_
  have e : ∑ j, (ξ j * c 0 j + c 0 j * ξ j) = 2 * ∑ j, c 0 j * ξ j := by
    rw [Finset.mul_sum]; exact Finset.sum_congr rfl fun j _ => by ring
  rw [e]
  simp only [normalizeJ]
  rw [Matrix.sub_mulVec, Matrix.smul_mulVec, Matrix.smul_mulVec, Matrix.one_mulVec]
  simp only [Pi.sub_apply, Pi.smul_apply, smul_eq_mul, Matrix.mulVec, dotProduct, vecMulVec_apply]
  have e2 : ∑ j, c 0 i * c 0 j * ξ j = c 0 i * ∑ j, c 0 j * ξ j := by
    rw [Finset.mul_sum]; exact Finset.sum_congr rfl fun j _ => by ring
  rw [e2]
  field_simp
  ring

/-- Normalising a vector or a homogeneous point that is not zero: the result has length one, and its covariance is
the covariance of the direction to first order. -/
theorem C145_normalize (a : UVec n) (h : a.v ≠ 0) :
    vnorm a.normalized.v = 1 ∧ (∃ k : ℝ, 0 < k ∧ a.normalized.v = k • a.v) ∧
    Propagates1 (vecMotion n) (vecMotion n) normalizeV a.v a.E a.normalized.E ∧
    a.normalized.E.mulVec a.v = 0 ∧
    ∀ p : UPoint, p.p ≠ 0 → p.normalize.p = normalizeV p.p ∧
      Propagates1 (vecMotion 4) (vecMotion 4) normalizeV p.p p.U p.normalize.U := by
  have hp := vnorm_pos h
  refine ⟨?_, ⟨1 / vnorm a.v, by positivity, ?_⟩,
    propagates1 (A := normalizeJ a.v) (vec_full _) (vec_single n) ?_ rfl, ?_, fun p hp' =>
    ⟨rfl, propagates1 (A := normalizeJ p.p) (vec_full _) (vec_single 4) ?_ rfl⟩⟩
  · simp only [UVec.normalized, normalizeV]
    rw [vnorm]
    have : ∑ i, a.v i * (1 / vnorm a.v) * (a.v i * (1 / vnorm a.v)) = 1 := by
      have e : ∑ i, a.v i * (1 / vnorm a.v) * (a.v i * (1 / vnorm a.v)) =
          (∑ i, a.v i * a.v i) * (1 / (vnorm a.v * vnorm a.v)) := by
        rw [Finset.sum_mul]; refine Finset.sum_congr rfl fun i _ => ?_
        field_simp
      rw [e, ← vnorm_sq]; field_simp
    rw [this, Real.sqrt_one]
  · funext i; simp only [UVec.normalized, normalizeV, Pi.smul_apply, smul_eq_mul]; ring
  · intro c ξ hc0 hc
    rw [← hc0]
    exact normalize_deriv hc (by rw [hc0]; exact h)
  · have hk : (normalizeJ a.v)ᵀ.mulVec a.v = 0 := by
      funext i
      have e : ∑ j, a.v j * a.v i * a.v j = a.v i * (vnorm a.v * vnorm a.v) := by
        rw [vnorm_sq, Finset.mul_sum]; exact Finset.sum_congr rfl fun j _ => by ring
      simp only [normalizeJ, Matrix.transpose_sub, Matrix.transpose_smul, Matrix.transpose_one, Matrix.sub_mulVec,
        Matrix.smul_mulVec, Matrix.one_mulVec, Pi.sub_apply, Pi.smul_apply, smul_eq_mul, Pi.zero_apply]
      simp only [Matrix.mulVec, dotProduct, Matrix.transpose_apply, vecMulVec_apply]
      rw [e]
      field_simp
      ring
    simp only [UVec.normalized]
    rw [← Matrix.mulVec_mulVec, hk, Matrix.mulVec_zero]
  · intro c ξ hc0 hc
    rw [← hc0]
    exact normalize_deriv hc (by rw [hc0]; exact hp')

/-- A vector with correlated components that meets the hypothesis. -/
example : (⟨![3, 4], !![2, 1; 1, 2]⟩ : UVec 2).v ≠ 0 := fun h => by simpa using congrFun h 0

/-- Linear functions, sums and differences, products with a number, of uncertain vectors. -/
theorem C145_vectors (a b : UVec n) (M : Matrix (Fin n) (Fin n) ℝ) (r : Fin n → ℝ) (s : UScal) (k : ℝ) :
    (a.add b).v = a.v + b.v ∧
    Propagates2 (vecMotion n) (vecMotion n) (vecMotion n) (fun x y => x + y) a.v b.v a.E b.E (a.add b).E ∧
    (a.sub b).v = a.v - b.v ∧
    Propagates2 (vecMotion n) (vecMotion n) (vecMotion n) (fun x y => x - y) a.v b.v a.E b.E (a.sub b).E ∧
    (a.addV r).v = a.v + r ∧ Propagates1 (vecMotion n) (vecMotion n) (fun x => x + r) a.v a.E (a.addV r).E ∧
    (a.subV r).v = a.v - r ∧ Propagates1 (vecMotion n) (vecMotion n) (fun x => x - r) a.v a.E (a.subV r).E ∧
    (a.linear M).v = M.mulVec a.v ∧
    Propagates1 (vecMotion n) (vecMotion n) M.mulVec a.v a.E (a.linear M).E ∧
    (a.mulS s).v = s.v • a.v ∧
    Propagates2 (vecMotion n) scalMotion (vecMotion n) (fun x t => t • x) a.v s.v a.E (mat1 s.s) (a.mulS s).E ∧
    (a.mulR k).v = k • a.v ∧ Propagates1 (vecMotion n) (vecMotion n) (fun x => k • x) a.v a.E (a.mulR k).E ∧
    (s.mulV r).v = s.v • r ∧
    Propagates1 scalMotion (vecMotion n) (fun t => t • r) s.v (mat1 s.s) (s.mulV r).E := by
  have hcol (w : Fin n → ℝ) (η : Fin 1 → ℝ) :
      (Matrix.of fun i (_ : Fin 1) => w i : Matrix (Fin n) (Fin 1) ℝ).mulVec η = η 0 • w := by
    funext i; simp [Matrix.mulVec, dotProduct, mul_comm]
  have hcov (w : Fin n → ℝ) (v : ℝ) : (Matrix.of fun i (_ : Fin 1) => w i : Matrix (Fin n) (Fin 1) ℝ) * mat1 v *
      (Matrix.of fun i (_ : Fin 1) => w i : Matrix (Fin n) (Fin 1) ℝ)ᵀ = v • vecMulVec w w := by
    ext i j; simp [Matrix.mul_apply, mat1, vecMulVec_apply]; ring
  refine ⟨rfl, propagates2 (A := 1) (B := 1) (vec_full _) (vec_full _) (vec_single n) ?_ (by simp [UVec.add]),
    rfl, propagates2 (A := 1) (B := -1) (vec_full _) (vec_full _) (vec_single n) ?_ (by simp [UVec.sub]),
    rfl, propagates1 (A := 1) (vec_full _) (vec_single n) ?_ (by simp [UVec.addV]),
    rfl, propagates1 (A := 1) (vec_full _) (vec_single n) ?_ (by simp [UVec.subV]),
    rfl, propagates1 (A := M) (vec_full _) (vec_single n) ?_ rfl,
    rfl, propagates2 (A := s.v • 1) (B := Matrix.of fun i _ => a.v i) (vec_full _) (scal_full _) (vec_single n) ?_ ?_,
    rfl, propagates1 (A := k • 1) (vec_full _) (vec_single n) ?_ (by simp [UVec.mulR, smul_smul]),
    rfl, propagates1 (A := Matrix.of fun i _ => r i) (scal_full _) (vec_single n) ?_ ?_⟩
  · intro c ξ d η hc0 hc hd0 hd
    exact (HasDerivAt.fun_add hc hd).congr_deriv (by simp)
  · intro c ξ d η hc0 hc hd0 hd
    exact (HasDerivAt.fun_sub hc hd).congr_deriv (by simp [Matrix.neg_mulVec, sub_eq_add_neg])
  · intro c ξ hc0 hc
    exact (HasDerivAt.add_const r hc).congr_deriv (by simp)
  · intro c ξ hc0 hc
    exact (HasDerivAt.sub_const r hc).congr_deriv (by simp)
  · intro c ξ hc0 hc
    have := (MDeriv.const M).mulVec (vderiv_iff.mpr hc)
    rw [vderiv_iff] at this
    exact this.congr_deriv (by simp)
  · intro c ξ d η hc0 hc hd0 hd
    rw [hcol, ← hc0, ← hd0]
    exact (HasDerivAt.fun_smul hd hc).congr_deriv (by simp [Matrix.smul_mulVec])
  · rw [hcov]
    simp [UVec.mulS, smul_smul, add_comm]
  · intro c ξ hc0 hc
    exact (HasDerivAt.fun_const_smul k hc).congr_deriv (by simp [Matrix.smul_mulVec])
  · intro c ξ hc0 hc
    rw [hcol]
    exact HasDerivAt.smul_const hc r
  · rw [hcov]; rfl

/-- Products, quotients, sums and differences of uncertain numbers, and the inner product of uncertain vectors. -/
theorem C145_numbers (a b : UScal) (x y : UVec n) (r : Fin n → ℝ) (k : ℝ) :
    (a.mul b).v = a.v * b.v ∧
    Propagates2 scalMotion scalMotion scalMotion (fun s t => s * t) a.v b.v (mat1 a.s) (mat1 b.s)
      (mat1 (a.mul b).s) ∧
    (a.add b).v = a.v + b.v ∧
    Propagates2 scalMotion scalMotion scalMotion (fun s t => s + t) a.v b.v (mat1 a.s) (mat1 b.s)
      (mat1 (a.add b).s) ∧
    (a.sub b).v = a.v - b.v ∧
    Propagates2 scalMotion scalMotion scalMotion (fun s t => s - t) a.v b.v (mat1 a.s) (mat1 b.s)
      (mat1 (a.sub b).s) ∧
    (a.div b).v = a.v / b.v ∧
    (b.v ≠ 0 → Propagates2 scalMotion scalMotion scalMotion (fun s t => s / t) a.v b.v (mat1 a.s) (mat1 b.s)
      (mat1 (a.div b).s)) ∧
    (a.mulR k).v = a.v * k ∧
    Propagates1 scalMotion scalMotion (fun s => s * k) a.v (mat1 a.s) (mat1 (a.mulR k).s) ∧
    (a.divR k).v = a.v / k ∧
    Propagates1 scalMotion scalMotion (fun s => s / k) a.v (mat1 a.s) (mat1 (a.divR k).s) ∧
    (x.dot y).v = x.v ⬝ᵥ y.v ∧
    Propagates2 (vecMotion n) (vecMotion n) scalMotion (fun s t => s ⬝ᵥ t) x.v y.v x.E y.E (mat1 (x.dot y).s) ∧
    (x.dotV r).v = x.v ⬝ᵥ r ∧
    Propagates1 (vecMotion n) scalMotion (fun s => s ⬝ᵥ r) x.v x.E (mat1 (x.dotV r).s) := by
  have hm (k : ℝ) (ξ : Fin 1 → ℝ) : (mat1 k).mulVec ξ 0 = k * ξ 0 := by simp [mat1, Matrix.mulVec, dotProduct]
  have hs (k v : ℝ) : mat1 k * mat1 v * (mat1 k)ᵀ = mat1 (k * v * k) := by
    ext i j; simp [mat1, Matrix.mul_apply]
  have ha (v w : ℝ) : mat1 v + mat1 w = mat1 (v + w) := rfl
  have hrow (w : Fin n → ℝ) (η : Fin n → ℝ) :
      (Matrix.of fun (_ : Fin 1) i => w i : Matrix (Fin 1) (Fin n) ℝ).mulVec η 0 = w ⬝ᵥ η := rfl
  have hcov (w : Fin n → ℝ) (E : Matrix (Fin n) (Fin n) ℝ) :
      (Matrix.of fun (_ : Fin 1) i => w i : Matrix (Fin 1) (Fin n) ℝ) * E *
      (Matrix.of fun (_ : Fin 1) i => w i : Matrix (Fin 1) (Fin n) ℝ)ᵀ = mat1 (w ⬝ᵥ E.mulVec w) := by
    ext i j
    rw [Matrix.mul_assoc]
    simp [Matrix.mul_apply, mat1, dotProduct, Matrix.mulVec]
  have hdot {c d : ℝ → Fin n → ℝ} {ξ η : Fin n → ℝ} (hc : HasDerivAt c ξ 0) (hd : HasDerivAt d η 0) :
      HasDerivAt (fun s => c s ⬝ᵥ d s) (d 0 ⬝ᵥ ξ + c 0 ⬝ᵥ η) 0 := by
    rw [← vderiv_iff] at hc hd
    have h : HasDerivAt (fun s => ∑ i, c s i * d s i) (∑ i, (ξ i * d 0 i + c 0 i * η i)) 0 :=
      HasDerivAt.fun_sum fun i _ => (hc i).mul (hd i)
    refine h.congr_deriv ?_
    rw [Finset.sum_add_distrib]
    simp [dotProduct, mul_comm]
  refine ⟨rfl, propagates2 (A := mat1 b.v) (B := mat1 a.v) (scal_full _) (scal_full _) scal_single ?_ ?_,
    rfl, propagates2 (A := mat1 1) (B := mat1 1) (scal_full _) (scal_full _) scal_single ?_ ?_,
    rfl, propagates2 (A := mat1 1) (B := mat1 (-1)) (scal_full _) (scal_full _) scal_single ?_ ?_,
    rfl, fun hb => propagates2 (A := mat1 (1 / b.v)) (B := mat1 (-a.v / (b.v * b.v))) (scal_full _) (scal_full _)
      scal_single ?_ ?_,
    rfl, propagates1 (A := mat1 k) (scal_full _) scal_single ?_ ?_,
    rfl, propagates1 (A := mat1 (1 / k)) (scal_full _) scal_single ?_ ?_,
    rfl, propagates2 (A := Matrix.of fun _ i => y.v i) (B := Matrix.of fun _ i => x.v i) (vec_full _) (vec_full _)
      scal_single ?_ ?_,
    rfl, propagates1 (A := Matrix.of fun _ i => r i) (vec_full _) scal_single ?_ ?_⟩
  · intro c ξ d η hc0 hc hd0 hd
    refine (HasDerivAt.mul hc hd).congr_deriv ?_
    rw [Pi.add_apply, hm, hm, hc0, hd0]; ring
  · rw [hs, hs, ha]; rfl
  · intro c ξ d η hc0 hc hd0 hd
    refine (HasDerivAt.add hc hd).congr_deriv ?_
    rw [Pi.add_apply, hm, hm]; ring
  · rw [hs, hs, ha]; simp [UScal.add]
  · intro c ξ d η hc0 hc hd0 hd
    refine (HasDerivAt.sub hc hd).congr_deriv ?_
    rw [Pi.add_apply, hm, hm]; ring
  · rw [hs, hs, ha]; simp [UScal.sub]
  · intro c ξ d η hc0 hc hd0 hd
    refine (HasDerivAt.div hc hd (by rw [hd0]; exact hb)).congr_deriv ?_
    rw [Pi.add_apply, hm, hm, hc0, hd0]
    field_simp
    ring
  · rw [hs, hs, ha]; rfl
  · intro c ξ hc0 hc
    refine (HasDerivAt.mul_const hc k).congr_deriv ?_
    rw [hm]; ring
  · rw [hs]; rfl
  · intro c ξ hc0 hc
    refine (HasDerivAt.div_const hc k).congr_deriv ?_
    rw [hm]; ring
  · rw [hs]; rfl
  · intro c ξ d η hc0 hc hd0 hd
    refine (hdot hc hd).congr_deriv ?_
    rw [Pi.add_apply, hrow, hrow, hc0, hd0]
  · rw [hcov, hcov, ha]; simp [UVec.dot, add_comm]
  · intro c ξ hc0 hc
    refine (hdot hc (hasDerivAt_const (0 : ℝ) r)).congr_deriv ?_
    rw [hrow]; simp
  · rw [hcov]; rfl

/-- Rotating an uncertain vector with a transformation. -/
theorem C145_rotate (A : Trafo) (hA : A.Valid) (a : UVec 3) : (a.rotate A).v = quatRotate A.q a.v ∧
    Propagates1 (vecMotion 3) (vecMotion 3) (quatRotate A.q) a.v a.E (a.rotate A).E := by
  refine ⟨rfl, propagates1 (A := quat2r A.q) (vec_full _) (vec_single 3) ?_ rfl⟩
  intro c ξ hc0 hc
  have := (MDeriv.const (quat2r A.q)).mulVec (vderiv_iff.mpr hc)
  rw [vderiv_iff] at this
  simp only [C48_rotate_is_matrix _ hA]
  simpa [vecMotion] using this

/-- What the operations return is a covariance: positive semidefinite matrices give positive semidefinite
matrices.  This holds also where the result is not the right covariance. -/
theorem C145_semidefinite (a b : UTrafo) (p r : UPoint) (x y : UVec n) (B : Trafo) (ha : a.A.Valid) (hb : b.A.Valid)
    (hB : B.Valid) (hU : a.U.PosSemidef) (hW : b.U.PosSemidef) (hp : p.U.PosSemidef) (hr : r.U.PosSemidef)
    (hx : x.E.PosSemidef) (hy : y.E.PosSemidef) :
    (a.mul b).U.PosSemidef ∧ a.inverse.U.PosSemidef ∧ (a.mulT B).U.PosSemidef ∧ (UTrafo.tMul B a).U.PosSemidef ∧
      (a.apply p).U.PosSemidef ∧ (p.add r).U.PosSemidef ∧ (p.sub r).U.PosSemidef ∧ p.U3.PosSemidef ∧
      p.normalize.U.PosSemidef ∧ (x.add y).E.PosSemidef ∧ (x.sub y).E.PosSemidef ∧ 0 ≤ (x.dot y).s ∧
      x.normalized.E.PosSemidef := by
  have conj {m k : ℕ} (A : Matrix (Fin m) (Fin k) ℝ) {U : Matrix (Fin k) (Fin k) ℝ} (h : U.PosSemidef) :
      (A * U * Aᵀ).PosSemidef := by
    obtain ⟨r, δ, rfl⟩ := cov_exists U h
    rw [← cov_act]; exact cov_psd _
  have quad {E : Matrix (Fin n) (Fin n) ℝ} (h : E.PosSemidef) (w : Fin n → ℝ) : 0 ≤ w ⬝ᵥ E.mulVec w := by
    simpa using h.dotProduct_mulVec_nonneg w
  exact ⟨(C145_product a b ha hb).2.psd hU hW, (C145_inverse a ha).2.psd hU,
    (C145_certain_product a B ha hB).1.2.psd hU, (C145_certain_product a B ha hB).2.2.psd hU,
    (C145_action a p ha).1.2.psd hU hp, (conj _ hp).add (conj _ hr), (conj _ hp).add (conj _ hr), conj _ hp,
    conj _ hp, hx.add hy, hx.add hy, add_nonneg (quad hy _) (quad hx _), conj _ hx⟩

end Kalibr.Unc
