import Verif.Uncertain.Spec
import Mathlib.Analysis.InnerProductSpace.GramMatrix
import Mathlib.Analysis.InnerProductSpace.Positive

/-!
# Covariances of linear functions, and curves with every velocity
-/

namespace Kalibr.Unc

open Kalibr.Kin Kalibr.Exp Matrix

section
variable {H : Type} [NormedAddCommGroup H] [InnerProductSpace ℝ H] {m n k : ℕ}

theorem inner_act (A : Matrix (Fin m) (Fin n) ℝ) (B : Matrix (Fin m) (Fin k) ℝ) (δ : Fin n → H) (ε : Fin k → H)
    (i j : Fin m) : inner ℝ (act A δ i) (act B ε j) =
      ∑ a, ∑ b, A i a * B j b * inner ℝ (δ a) (ε b) := by
  simp only [act, sum_inner, inner_sum, inner_smul_left, inner_smul_right]
  rw [Finset.sum_comm]
  refine Finset.sum_congr rfl fun a _ => ?_
  rw [Finset.mul_sum]
  refine Finset.sum_congr rfl fun b _ => ?_
  simp; ring

theorem cov_act (A : Matrix (Fin m) (Fin n) ℝ) (δ : Fin n → H) : Cov (act A δ) = A * Cov δ * Aᵀ := by
  ext i j
  simp only [Cov, inner_act, Matrix.mul_apply, Matrix.transpose_apply, Finset.sum_mul]
  rw [Finset.sum_comm]
  refine Finset.sum_congr rfl fun a _ => Finset.sum_congr rfl fun b _ => ?_
  ring

theorem cov_add (A : Matrix (Fin m) (Fin n) ℝ) (B : Matrix (Fin m) (Fin k) ℝ) (δ : Fin n → H) (ε : Fin k → H)
    (h : Uncorrelated δ ε) : Cov (act A δ + act B ε) = A * Cov δ * Aᵀ + B * Cov ε * Bᵀ := by
  have h' (i : Fin k) (j : Fin n) : inner ℝ (ε i) (δ j) = 0 := by rw [real_inner_comm]; exact h j i
  ext i j
  rw [Matrix.add_apply, ← cov_act, ← cov_act]
  simp only [Cov, Pi.add_apply, inner_add_left, inner_add_right]
  have e1 : inner ℝ (act B ε i) (act A δ j) = (0 : ℝ) := by
    rw [inner_act]; simp [h']
  have e2 : inner ℝ (act A δ i) (act B ε j) = (0 : ℝ) := by
    rw [inner_act]; simp [h _ _]
  rw [e1, e2]; ring

theorem cov_psd (δ : Fin n → H) : (Cov δ).PosSemidef := by
  have : Cov δ = Matrix.gram ℝ δ := rfl
  rw [this]
  exact Matrix.posSemidef_gram ℝ δ

end

/-- Every velocity is the velocity of a curve. -/
def Full {X : Type} {n : ℕ} (M : Motion X n) (x : X) : Prop := ∀ ξ, ∃ c, c 0 = x ∧ M c ξ

/-- A curve has one velocity. -/
def Single {X : Type} {n : ℕ} (M : Motion X n) : Prop := ∀ c ξ η, M c ξ → M c η → ξ = η

section
variable {X Y Z : Type} {n m k : ℕ} {MX : Motion X n} {MY : Motion Y m} {MZ : Motion Z k}

theorem mulVec_inj {A A' : Matrix (Fin k) (Fin n) ℝ} (h : ∀ ξ, A.mulVec ξ = A'.mulVec ξ) : A = A' := by
  ext i j
  have := congrFun (h (Pi.single j 1)) i
  simpa using this

theorem propagates1 {f : X → Z} {x : X} {U : Matrix (Fin n) (Fin n) ℝ} {V : Matrix (Fin k) (Fin k) ℝ}
    {A : Matrix (Fin k) (Fin n) ℝ} (hX : Full MX x) (hZ : Single MZ) (hA : Deriv1 MX MZ f x A)
    (hV : V = A * U * Aᵀ) : Propagates1 MX MZ f x U V := by
  refine ⟨⟨A, hA⟩, fun A' hA' H _ _ δ hδ => ?_⟩
  have : A' = A := mulVec_inj fun ξ => by
    obtain ⟨c, h0, hc⟩ := hX ξ
    exact hZ _ _ _ (hA' c ξ h0 hc) (hA c ξ h0 hc)
  rw [this, cov_act, hδ, hV]

theorem propagates2 {f : X → Y → Z} {x : X} {y : Y} {U : Matrix (Fin n) (Fin n) ℝ} {W : Matrix (Fin m) (Fin m) ℝ}
    {V : Matrix (Fin k) (Fin k) ℝ} {A : Matrix (Fin k) (Fin n) ℝ} {B : Matrix (Fin k) (Fin m) ℝ}
    (hX : Full MX x) (hY : Full MY y) (hZ : Single MZ) (hA : Deriv2 MX MY MZ f x y A B)
    (hV : V = A * U * Aᵀ + B * W * Bᵀ) : Propagates2 MX MY MZ f x y U W V := by
  refine ⟨⟨A, B, hA⟩, fun A' B' hA' H _ _ δ ε hδ hε hu => ?_⟩
  obtain ⟨c0, hc00, hc0⟩ := hX 0
  obtain ⟨d0, hd00, hd0⟩ := hY 0
  have e1 : A' = A := mulVec_inj fun ξ => by
    obtain ⟨c, h0, hc⟩ := hX ξ
    have := hZ _ _ _ (hA' c ξ d0 0 h0 hc hd00 hd0) (hA c ξ d0 0 h0 hc hd00 hd0)
    simpa using this
  have e2 : B' = B := mulVec_inj fun η => by
    obtain ⟨d, h0, hd⟩ := hY η
    have := hZ _ _ _ (hA' c0 0 d η hc00 hc0 h0 hd) (hA c0 0 d η hc00 hc0 h0 hd)
    simpa using this
  rw [e1, e2, cov_add _ _ _ _ hu, hδ, hε, hV]

theorem psd_rows {U : Matrix (Fin n) (Fin n) ℝ} (h : U.PosSemidef) :
    ∃ (r : ℕ) (v : Fin r → Fin n → ℝ), ∀ i j, U i j = ∑ a, v a i * v a j := by
  obtain ⟨r, v, rfl⟩ := Matrix.posSemidef_iff_eq_sum_vecMulVec.mp h
  exact ⟨r, v, fun i j => by simp [Matrix.sum_apply, vecMulVec_apply]⟩

/-- Every positive semidefinite matrix is the covariance of a random vector. -/
theorem cov_exists (U : Matrix (Fin n) (Fin n) ℝ) (h : U.PosSemidef) :
    ∃ (r : ℕ) (δ : Fin n → EuclideanSpace ℝ (Fin r)), Cov δ = U := by
  obtain ⟨r, v, hv⟩ := psd_rows h
  refine ⟨r, fun i => WithLp.toLp 2 fun a => v a i, ?_⟩
  ext i j
  simp [Cov, PiLp.inner_apply, hv, mul_comm]

theorem Propagates1.psd {f : X → Z} {x : X} {U : Matrix (Fin n) (Fin n) ℝ} {V : Matrix (Fin k) (Fin k) ℝ}
    (h : Propagates1 MX MZ f x U V) (hU : U.PosSemidef) : V.PosSemidef := by
  obtain ⟨A, hA⟩ := h.deriv
  obtain ⟨r, δ, hδ⟩ := cov_exists U hU
  rw [← h.cov A hA _ δ hδ]
  exact cov_psd _

theorem cov_exists2 (U : Matrix (Fin n) (Fin n) ℝ) (W : Matrix (Fin m) (Fin m) ℝ) (hU : U.PosSemidef)
    (hW : W.PosSemidef) : ∃ (r q : ℕ) (δ : Fin n → EuclideanSpace ℝ (Fin r ⊕ Fin q))
      (ε : Fin m → EuclideanSpace ℝ (Fin r ⊕ Fin q)), Cov δ = U ∧ Cov ε = W ∧ Uncorrelated δ ε := by
  obtain ⟨r, B, hB⟩ := psd_rows hU
  obtain ⟨q, C, hC⟩ := psd_rows hW
  refine ⟨r, q, fun i => WithLp.toLp 2 (Sum.elim (fun a => B a i) 0), fun i => WithLp.toLp 2 (Sum.elim 0 fun a => C a i),
    ?_, ?_, ?_⟩
  · ext i j
    simp [Cov, PiLp.inner_apply, hB, mul_comm]
  · ext i j
    simp [Cov, PiLp.inner_apply, hC, mul_comm]
  · intro i j
    simp [PiLp.inner_apply]

theorem Propagates2.psd {f : X → Y → Z} {x : X} {y : Y} {U : Matrix (Fin n) (Fin n) ℝ}
    {W : Matrix (Fin m) (Fin m) ℝ} {V : Matrix (Fin k) (Fin k) ℝ} (h : Propagates2 MX MY MZ f x y U W V)
    (hU : U.PosSemidef) (hW : W.PosSemidef) : V.PosSemidef := by
  obtain ⟨A, B, hA⟩ := h.deriv
  obtain ⟨r, q, δ, ε, hδ, hε, hu⟩ := cov_exists2 U W hU hW
  rw [← h.cov A B hA _ δ ε hδ hε hu]
  exact cov_psd _

end

/-! ## Vectors and numbers -/

theorem vec_full {n : ℕ} (x : Fin n → ℝ) : Full (vecMotion n) x := fun ξ =>
  ⟨fun s => x + s • ξ, by simp, by
    have := ((hasDerivAt_id (0 : ℝ)).smul_const ξ).const_add x
    simpa [vecMotion] using this⟩

theorem vec_single (n : ℕ) : Single (vecMotion n) := fun _ _ _ h h' => h.unique h'

theorem scal_full (x : ℝ) : Full scalMotion x := fun ξ =>
  ⟨fun s => x + s * ξ 0, by simp, by
    have := ((hasDerivAt_id (0 : ℝ)).mul_const (ξ 0)).const_add x
    simpa [scalMotion] using this⟩

theorem scal_single : Single scalMotion := fun _ ξ η h h' => by
  have := HasDerivAt.unique h h'
  funext i
  rw [Fin.fin_one_eq_zero i]; exact this

/-! ## Transformations -/

theorem trafo_rigid {A : Trafo} (h : A.Valid) : Rigid A.T := ⟨_, C48_unit_gives_rotation A.q h, A.t, rfl⟩

theorem trafo_single : Single trafoMotion := by
  intro c ξ η h h'
  obtain ⟨C, hC, t, hT⟩ := trafo_rigid (h.1 0)
  have h1 := twist_iff.mp h.2
  have h2 := twist_iff.mp h'.2
  have e : hat ξ * (c 0).T = hat η * (c 0).T := by
    ext i j
    exact (h1 i j).unique (h2 i j)
  obtain ⟨u, hu⟩ := hT ▸ rt_unit hC t
  have e2 : hat ξ = hat η := by
    have := congrArg (· * (u⁻¹ : M4ˣ).val) e
    simp only [mul_assoc] at this
    rw [← hu] at this
    simpa using this
  have f (i j : Fin 4) : hat ξ i j = hat η i j := by rw [e2]
  funext i
  fin_cases i
  · simpa [hat] using f 0 3
  · simpa [hat] using f 1 3
  · simpa [hat] using f 2 3
  · simpa [hat] using f 1 2
  · simpa [hat] using f 2 0
  · simpa [hat] using f 0 1

theorem axis_exists (d : V3) : ∃ (θ : ℝ) (a : V3), a 0 ^ 2 + a 1 ^ 2 + a 2 ^ 2 = 1 ∧ d = θ • a := by
  by_cases h : d 0 ^ 2 + d 1 ^ 2 + d 2 ^ 2 = 0
  · refine ⟨0, ![1, 0, 0], by simp, ?_⟩
    have h0 := sq_nonneg (d 0); have h1 := sq_nonneg (d 1); have h2 := sq_nonneg (d 2)
    apply ext3 <;> simp <;> apply pow_eq_zero_iff (two_ne_zero) |>.mp <;> linarith
  · have hp : 0 < d 0 ^ 2 + d 1 ^ 2 + d 2 ^ 2 := lt_of_le_of_ne (by positivity) (Ne.symm h)
    obtain ⟨r, hr⟩ : ∃ r, r = √(d 0 ^ 2 + d 1 ^ 2 + d 2 ^ 2) := ⟨_, rfl⟩
    have h2 : r ^ 2 = d 0 ^ 2 + d 1 ^ 2 + d 2 ^ 2 := by rw [hr]; exact Real.sq_sqrt hp.le
    have hr0 : r ≠ 0 := fun h0 => h (by rw [← h2, h0]; simp)
    refine ⟨r, fun i => d i / r, ?_, ?_⟩
    · simp only [div_pow, ← add_div, ← h2]
      exact div_self (by positivity)
    · funext i; simp; field_simp

/-- Unit quaternions that turn with a given angular velocity. -/
theorem quat_curve (q : V4) (hq : Unit4 q) (d : V3) : ∃ c : ℝ → V4, c 0 = q ∧ (∀ s, Unit4 (c s)) ∧
    AngularVelocity (fun s => quat2r (c s)) d 0 := by
  obtain ⟨θ, a, ha, rfl⟩ := axis_exists d
  obtain ⟨e, he⟩ : ∃ e : ℝ → V4, e = fun s => ![Real.sin (s * (θ / 2)) * a 0, Real.sin (s * (θ / 2)) * a 1,
    Real.sin (s * (θ / 2)) * a 2, Real.cos (s * (θ / 2))] := ⟨_, rfl⟩
  have e0 : e 0 = ![0, 0, 0, 1] := by rw [he]; simp
  have hu (s : ℝ) : Unit4 (e s) := by
    rw [he]; simp only [Unit4, Matrix.cons_val]
    have := Real.sin_sq_add_cos_sq (s * (θ / 2))
    linear_combination this + Real.sin (s * (θ / 2)) ^ 2 * ha
  have hd : VDeriv e ![θ / 2 * a 0, θ / 2 * a 1, θ / 2 * a 2, 0] := by
    have hl : HasDerivAt (fun s : ℝ => s * (θ / 2)) (θ / 2) 0 := by
      simpa using (hasDerivAt_id (0 : ℝ)).mul_const (θ / 2)
    have hs : HasDerivAt (fun s : ℝ => Real.sin (s * (θ / 2))) (θ / 2) 0 := by simpa using hl.sin
    have hc : HasDerivAt (fun s : ℝ => Real.cos (s * (θ / 2))) 0 0 := by simpa using hl.cos
    intro i
    rw [he]
    fin_cases i
    · simpa using hs.mul_const (a 0)
    · simpa using hs.mul_const (a 1)
    · simpa using hs.mul_const (a 2)
    · simpa using hc
  refine ⟨fun s => qplus (e s) q, ?_, fun s => (C48_unit_closed _ _ (hu s) hq).1, ?_⟩
  · simp only [e0]
    apply ext4 <;> simp [qplus]
  · rw [angular_iff]
    have h := quat2r_deriv hd e0
    have h2 := h.mul (MDeriv.const (quat2r q))
    have ee : (fun s : ℝ => quat2r (qplus (e s) q)) = fun s => quat2r (e s) * quat2r q := by
      funext s; rw [C48_matrix_of_product]
    rw [ee]
    refine h2.congr ?_
    have e1 : (![2 * (θ / 2 * a 0), 2 * (θ / 2 * a 1), 2 * (θ / 2 * a 2)] : V3) = θ • a := by
      apply ext3 <;> simp <;> ring
    have e2 : quat2r (e 0) = 1 := by rw [e0]; exact quat2r_identity
    simp only [e2, mul_zero, add_zero, Matrix.cons_val]
    have e3 : qplus (e 0) q = q := by rw [e0]; apply ext4 <;> simp [qplus]
    rw [e1, e3]
    simp

theorem trafo_full (A : Trafo) (hA : A.Valid) : Full trafoMotion A := by
  intro ξ
  obtain ⟨c, h0, hu, hd⟩ := quat_curve A.q hA ![ξ 3, ξ 4, ξ 5]
  obtain ⟨v, hv⟩ : ∃ v : V3, v = ![ξ 0, ξ 1, ξ 2] + (crossMx A.t).mulVec ![ξ 3, ξ 4, ξ 5] := ⟨_, rfl⟩
  refine ⟨fun s => ⟨c s, A.t + s • v⟩, by simp [h0], fun s => hu s, ?_⟩
  unfold Trafo.T
  simp only
  rw [twist_parts (C := fun s => quat2r (c s)) (t := fun s : ℝ => A.t + s • v)]
  refine ⟨hd, ?_⟩
  simp only [zero_smul, add_zero, ← hv]
  rw [vderiv_iff]
  have := ((hasDerivAt_id (0 : ℝ)).smul_const v).const_add A.t
  simpa using this

end Kalibr.Unc
