import Verif.Stats.Estimator
import Mathlib.Analysis.Matrix.PosDef
import Mathlib.Analysis.Matrix.Spectrum
import Mathlib.Analysis.Matrix.Order
import Mathlib.MeasureTheory.Measure.Lebesgue.Basic
import Mathlib.MeasureTheory.Integral.Pi

/-!
# The normal distribution of a vector
-/

namespace Kalibr.Stats

open Matrix ProbabilityTheory MeasureTheory

variable {n : ℕ}

/-! ## Positive definite matrices -/

theorem logdet_le {A : Matrix (Fin n) (Fin n) ℝ} (hA : A.PosDef) :
    Real.log A.det ≤ A.trace - n ∧ (Real.log A.det = A.trace - n → A = 1) := by
  have hH := hA.isHermitian
  have hpos : ∀ i, 0 < hH.eigenvalues i := hA.eigenvalues_pos
  have hdet : A.det = ∏ i, hH.eigenvalues i := by simpa using hH.det_eq_prod_eigenvalues
  have htr : A.trace = ∑ i, hH.eigenvalues i := by simpa using hH.trace_eq_sum_eigenvalues
  have hlog : Real.log A.det = ∑ i, Real.log (hH.eigenvalues i) := by
    rw [hdet, Real.log_prod fun i _ => (hpos i).ne']
  have hsum : A.trace - n = ∑ i, (hH.eigenvalues i - 1) := by
    rw [htr, Finset.sum_sub_distrib]
    simp
  have hle : ∀ i ∈ Finset.univ, Real.log (hH.eigenvalues i) ≤ hH.eigenvalues i - 1 := fun i _ =>
    Real.log_le_sub_one_of_pos (hpos i)
  rw [hlog, hsum]
  refine ⟨Finset.sum_le_sum hle, fun h => ?_⟩
  have h1 := (Finset.sum_eq_sum_iff_of_le hle).1 h
  have h2 : ∀ i, hH.eigenvalues i = 1 := by
    intro i
    by_contra hne
    exact absurd (h1 i (Finset.mem_univ _)) (Real.log_lt_sub_one_of_pos (hpos i) hne).ne
  have h3 := hH.spectral_theorem
  have h4 : (diagonal (RCLike.ofReal ∘ hH.eigenvalues) : Matrix (Fin n) (Fin n) ℝ) = 1 := by
    rw [← diagonal_one]
    congr 1
    funext i
    simp [h2 i]
  rw [h4] at h3
  rw [h3]
  simp

open scoped MatrixOrder ComplexOrder in
theorem root_of {P : Matrix (Fin n) (Fin n) ℝ} (hP : P.PosSemidef) : ∃ B : Matrix (Fin n) (Fin n) ℝ, P = Bᴴ * B :=
  CStarAlgebra.nonneg_iff_eq_star_mul_self.1 hP.nonneg

/-- The mixed form of the inequality for the logarithm of the determinant. -/
theorem logdet_mul {P S : Matrix (Fin n) (Fin n) ℝ} (hP : P.PosDef) (hS : S.PosDef) :
    Real.log (P.det * S.det) ≤ (P * S).trace - n ∧ (Real.log (P.det * S.det) = (P * S).trace - n → P * S = 1) := by
  obtain ⟨B, hB⟩ := root_of hP.posSemidef
  have hBd : B.det ≠ 0 := by
    intro h
    have := hP.det_pos
    rw [hB, det_mul, h, mul_zero] at this
    exact lt_irrefl _ this
  have hBu : IsUnit B := (isUnit_iff_isUnit_det _).2 (isUnit_iff_ne_zero.2 hBd)
  have hA : (B * S * Bᴴ).PosDef := (Matrix.IsUnit.posDef_star_right_conjugate_iff hBu).2 hS
  have hdet : (B * S * Bᴴ).det = P.det * S.det := by
    rw [hB]
    simp only [det_mul]
    ring
  have htr : (B * S * Bᴴ).trace = (P * S).trace := by
    rw [hB, Matrix.trace_mul_comm, Matrix.mul_assoc]
  obtain ⟨h1, h2⟩ := logdet_le hA
  rw [hdet, htr] at h1 h2
  refine ⟨h1, fun h => ?_⟩
  have h3 := h2 h
  have h4 : B⁻¹ * (B * S * Bᴴ) * B = B⁻¹ * 1 * B := by rw [h3]
  rw [Matrix.mul_one, nonsing_inv_mul _ ((isUnit_iff_isUnit_det _).1 hBu)] at h4
  have h5 : S * P = 1 := by
    rw [hB, ← h4]
    simp only [← Matrix.mul_assoc]
    rw [nonsing_inv_mul _ ((isUnit_iff_isUnit_det _).1 hBu), Matrix.one_mul]
  exact mul_eq_one_comm.1 h5

/-! ## The distribution -/

/-- The members of a normal distribution agree with its mean and its covariance. -/
structure NormalM.Is (d : NormalM n) (m : Fin n → ℝ) (S : Matrix (Fin n) (Fin n) ℝ) : Prop where
  pos : S.PosDef
  mean : d.mean = m
  cov : d.cov = S
  precision : d.precision = S⁻¹
  det : d.det = S.det
  normalizer : d.normalizer = 1 / 2 * n * Real.log (2 * Real.pi) + 1 / 2 * Real.log S.det
  factor : d.factor * d.factorᵀ = S

theorem psd_symm {S : Matrix (Fin n) (Fin n) ℝ} (h : S.PosSemidef) : Sᵀ = S := by
  have := h.isHermitian
  rwa [IsHermitian, conjTranspose_eq_transpose_of_trivial] at this

theorem set_ok {E : Eig n} (hE : E.Right) (d : NormalM n) (S : Matrix (Fin n) (Fin n) ℝ) :
    ((d.setCovariance E S).2 = true ↔ S.PosSemidef) ∧ (d.setCovariance E S).1.mean = d.mean ∧
    (S.PosSemidef → (d.setCovariance E S).1.cov = S) ∧ (S.PosDef → (d.setCovariance E S).1.Is d.mean S) := by
  unfold NormalM.setCovariance
  by_cases hs : Sᵀ ≠ S
  · have hn : ¬ S.PosSemidef := fun h => hs (psd_symm h)
    rw [if_pos hs]
    exact ⟨by simp [hn], rfl, fun h => absurd h hn, fun h => absurd h.posSemidef hn⟩
  · rw [if_neg hs]
    rw [not_not] at hs
    by_cases hp : S.PosSemidef
    · have h1 := (hE.isPositive S hs).2 hp
      have h2 : ¬ ∃ i, S i i < 0 := by
        rintro ⟨i, hi⟩
        exact absurd hp.diag_nonneg (not_le.2 hi)
      dsimp only
      rw [if_neg (by simp [h1]), if_neg h2]
      refine ⟨by simp [hp], rfl, fun _ => rfl, fun hd => ?_⟩
      have hdet := hd.det_pos
      refine ⟨hd, rfl, rfl, ?_, rfl, rfl, hE.llt S hd⟩
      exact (inv_eq_left_inv (hE.inverse S hdet.ne')).symm
    · have h1 : E.isPositive S = false := by
        rw [← Bool.not_eq_true]
        exact fun h => hp ((hE.isPositive S hs).1 h)
      dsimp only
      rw [if_pos h1]
      exact ⟨by simp [hp], rfl, fun h => absurd h hp, fun h => absurd h.posSemidef hp⟩

theorem pdf_densityM {d : NormalM n} {m : Fin n → ℝ} {S : Matrix (Fin n) (Fin n) ℝ} (h : d.Is m S) (x : Fin n → ℝ) :
    d.pdf x = densityM m S x := by
  have hdet := h.pos.det_pos
  have h1 : (0 : ℝ) < (2 * Real.pi) ^ n * S.det := by positivity
  unfold NormalM.pdf NormalM.logpdf NormalM.mahalanobis densityM
  rw [h.mean, h.precision, h.normalizer, sub_eq_add_neg, Real.exp_add, mul_comm, ← dotProduct_mulVec]
  congr 1
  rw [Real.sqrt_eq_rpow, ← Real.rpow_neg h1.le, Real.rpow_def_of_pos h1, Real.log_mul (by positivity) hdet.ne', Real.log_pow]
  congr 1
  ring

theorem densityM_pos {m : Fin n → ℝ} {S : Matrix (Fin n) (Fin n) ℝ} (h : S.PosDef) (x : Fin n → ℝ) : 0 < densityM m S x := by
  have hdet := h.det_pos
  unfold densityM
  positivity

/-- The density of independent numbers with the standard normal distribution. -/
noncomputable def standard (z : Fin n → ℝ) : ℝ := ∏ i, density 0 1 (z i)

theorem standard_eq (z : Fin n → ℝ) : standard z = (Real.sqrt ((2 * Real.pi) ^ n))⁻¹ * Real.exp (-(1 / 2) * (z ⬝ᵥ z)) := by
  unfold standard density gaussianPDFReal
  rw [Finset.prod_mul_distrib, ← Real.exp_sum]
  congr 1
  · rw [Finset.prod_const, Finset.card_univ, Fintype.card_fin, inv_pow]
    congr 1
    symm
    rw [Real.sqrt_eq_iff_mul_self_eq (by positivity) (by positivity), ← mul_pow, Real.mul_self_sqrt (by positivity)]
    simp
  · congr 1
    simp only [dotProduct, Finset.mul_sum]
    refine Finset.sum_congr rfl fun i _ => ?_
    simp
    ring

theorem standard_factor {m : Fin n → ℝ} {S L : Matrix (Fin n) (Fin n) ℝ} (h : S.PosDef) (hL : L * Lᵀ = S) (z : Fin n → ℝ) :
    standard z = |L.det| * densityM m S (m + L *ᵥ z) := by
  have hdet := h.det_pos
  have hd : S.det = L.det ^ 2 := by rw [← hL, det_mul, det_transpose, sq]
  have hL0 : L.det ≠ 0 := by
    intro h0
    rw [hd, h0] at hdet
    norm_num at hdet
  have hu : IsUnit L.det := isUnit_iff_ne_zero.2 hL0
  have hut : IsUnit Lᵀ.det := by rw [det_transpose]; exact hu
  have hi : S⁻¹ = Lᵀ⁻¹ * L⁻¹ := by rw [← hL, Matrix.mul_inv_rev]
  have hq : (L *ᵥ z) ⬝ᵥ S⁻¹ *ᵥ (L *ᵥ z) = z ⬝ᵥ z := by
    rw [hi, ← mulVec_mulVec, mulVec_mulVec z L⁻¹, nonsing_inv_mul _ hu, one_mulVec, dotProduct_mulVec, ← mulVec_transpose,
      mulVec_mulVec, transpose_nonsing_inv, transpose_transpose, nonsing_inv_mul _ hu, one_mulVec]
  unfold densityM
  rw [standard_eq, add_sub_cancel_left, hq, hd, Real.sqrt_mul (by positivity), Real.sqrt_sq_eq_abs]
  have : |L.det| ≠ 0 := abs_ne_zero.2 hL0
  field_simp

theorem affine_lintegral {L : Matrix (Fin n) (Fin n) ℝ} (hL : L.det ≠ 0) (m : Fin n → ℝ) {g : (Fin n → ℝ) → ENNReal} (hg : Measurable g) :
    ∫⁻ z, g (m + L *ᵥ z) = ENNReal.ofReal |L.det⁻¹| * ∫⁻ x, g x := by
  have hmeas : Measurable fun z => L.toLin' z := (LinearMap.continuous_on_pi L.toLin').measurable
  have h1 : ∫⁻ x, g (m + x) = ∫⁻ x, g x := lintegral_add_left_eq_self g m
  have h2 := lintegral_map (μ := volume) (hg.comp (measurable_const_add m)) hmeas
  have h3 := Real.map_matrix_volume_pi_eq_smul_volume_pi hL
  rw [h3, lintegral_smul_measure] at h2
  rw [← h1, ← smul_eq_mul]
  refine Eq.trans ?_ h2.symm
  simp

theorem standard_one : ∫⁻ z : Fin n → ℝ, ENNReal.ofReal (standard z) = 1 := by
  have h0 : ∀ z : Fin n → ℝ, 0 ≤ standard z := fun z => Finset.prod_nonneg fun i _ => (density_pos one_pos _).le
  have hi : Integrable (standard (n := n)) := by
    refine Integrable.fintype_prod (f := fun _ => density 0 1) fun i => ?_
    exact integrable_gaussianPDFReal 0 _
  rw [← ofReal_integral_eq_lintegral_ofReal hi (Filter.Eventually.of_forall h0)]
  have : ∫ z : Fin n → ℝ, standard z = 1 := by
    unfold standard
    rw [integral_fintype_prod_volume_eq_prod (fun (_ : Fin n) => density 0 1)]
    simp [density_one one_pos]
  rw [this, ENNReal.ofReal_one]

theorem measurable_densityM (m : Fin n → ℝ) (S : Matrix (Fin n) (Fin n) ℝ) : Measurable (densityM m S) := by
  refine Continuous.measurable ?_
  unfold densityM
  simp only [dotProduct, mulVec]
  fun_prop

open Classical in
/-- Eigen with exact arithmetic. -/
noncomputable def exact (n : ℕ) : Eig n where
  inverse S := S⁻¹
  llt S := if h : S.PosSemidef then (root_of h).chooseᴴ else S
  isPositive S := decide S.PosSemidef

theorem exact_right : (exact n).Right where
  inverse S h := nonsing_inv_mul _ (isUnit_iff_ne_zero.2 h)
  llt S h := by
    unfold exact
    dsimp only
    rw [dif_pos h.posSemidef]
    have := (root_of h.posSemidef).choose_spec
    conv_rhs => rw [this]
    rw [conjTranspose_eq_transpose_of_trivial, transpose_transpose]
  isPositive S _ := by simp [exact]

/-- **C146** With Eigen as documented, `setCovariance` returns for the positive semidefinite matrices and throws for the others,
which leaves the mean and the covariance as they were. -/
theorem C146_covariance {E : Eig n} (hE : E.Right) (d : NormalM n) (S : Matrix (Fin n) (Fin n) ℝ) :
    ((d.setCovariance E S).2 = true ↔ S.PosSemidef) ∧ (d.setCovariance E S).1.mean = d.mean ∧
    ((d.setCovariance E S).2 = true → (d.setCovariance E S).1.cov = S) ∧
    ((d.setCovariance E S).2 = false → (d.setCovariance E S).1.cov = d.cov ∧ (d.setCovariance E S).1.precision = d.precision) := by
  obtain ⟨h1, h2, h3, _⟩ := set_ok hE d S
  refine ⟨h1, h2, fun h => h3 (h1.1 h), ?_⟩
  unfold NormalM.setCovariance
  dsimp only
  split_ifs <;> simp

/-- **C146** The values returned by `pdf` of a distribution made with a positive definite covariance are those of the density of the
normal distribution: the integral is one, the mode is the only maximum, and the vectors returned by `getSample` for independent
standard normal numbers have this density. -/
theorem C146_vector_density {E : Eig n} (hE : E.Right) (m : Fin n → ℝ) (S : Matrix (Fin n) (Fin n) ℝ) (hS : S.PosDef) :
    ∃ d, NormalM.make E m S = some d ∧ d.mean = m ∧ d.cov = S ∧ d.precision * S = 1 ∧
      (∀ x, d.pdf x = densityM m S x ∧ 0 < d.pdf x ∧ d.logpdf x = Real.log (d.pdf x)) ∧
      (∫ x, d.pdf x = 1) ∧
      (∀ x, x ≠ d.mean → d.pdf x < d.pdf d.mean) ∧
      ∀ g : (Fin n → ℝ) → ENNReal, Measurable g →
        ∫⁻ z, g (d.sample z) * ENNReal.ofReal (∏ i, density 0 1 (z i)) = ∫⁻ x, g x * ENNReal.ofReal (d.pdf x) := by
  obtain ⟨h1, h2, h3, h4⟩ := set_ok hE ⟨m, 0, 0, 0, 0, 0⟩ S
  have hd := h4 hS
  obtain ⟨d, hdef⟩ : ∃ d, d = (NormalM.setCovariance E ⟨m, 0, 0, 0, 0, 0⟩ S).1 := ⟨_, rfl⟩
  have hmk : NormalM.make E m S = some d := by
    unfold NormalM.make
    have h5 := h1.2 hS.posSemidef
    rcases hx : NormalM.setCovariance E ⟨m, 0, 0, 0, 0, 0⟩ S with ⟨a, b⟩
    rw [hx] at h5 hdef
    simp only at h5
    subst h5
    simp [hdef]
  rw [← hdef] at hd
  dsimp only at hd
  have hdet := hS.det_pos
  have hpdf : ∀ x, d.pdf x = densityM m S x := pdf_densityM hd
  have hLd : S.det = d.factor.det ^ 2 := by rw [← hd.factor, det_mul, det_transpose, sq]
  have hL0 : d.factor.det ≠ 0 := by
    intro h0
    rw [hLd, h0] at hdet
    norm_num at hdet
  have hsample : ∀ g : (Fin n → ℝ) → ENNReal, Measurable g →
        ∫⁻ z, g (d.sample z) * ENNReal.ofReal (∏ i, density 0 1 (z i)) = ∫⁻ x, g x * ENNReal.ofReal (d.pdf x) := by
    intro g hg
    have e1 : ∀ z : Fin n → ℝ, g (d.sample z) * ENNReal.ofReal (∏ i, density 0 1 (z i)) =
        (fun x => ENNReal.ofReal |d.factor.det| * (g x * ENNReal.ofReal (densityM m S x))) (m + d.factor *ᵥ z) := by
      intro z
      have := standard_factor (m := m) hS hd.factor z
      unfold standard at this
      rw [this, ENNReal.ofReal_mul (abs_nonneg _)]
      unfold NormalM.sample
      rw [hd.mean]
      ring
    simp only [e1]
    have hgm : Measurable fun x => g x * ENNReal.ofReal (densityM m S x) := hg.mul (measurable_densityM m S).ennreal_ofReal
    rw [affine_lintegral hL0 m (hgm.const_mul _), lintegral_const_mul _ hgm, ← mul_assoc, ← ENNReal.ofReal_mul (abs_nonneg _),
      ← abs_mul, inv_mul_cancel₀ hL0]
    simp only [hpdf]
    simp
  refine ⟨d, hmk, hd.mean, hd.cov, ?_, ?_, ?_, ?_, hsample⟩
  · rw [hd.precision, nonsing_inv_mul _ (isUnit_iff_ne_zero.2 hdet.ne')]
  · exact fun x => ⟨hpdf x, Real.exp_pos _, (Real.log_exp _).symm⟩
  · have h5 := hsample (fun _ => 1) measurable_const
    simp only [one_mul] at h5
    have h6 := standard_one (n := n)
    unfold standard at h6
    rw [h6] at h5
    rw [integral_eq_lintegral_of_nonneg_ae (f := d.pdf) (Filter.Eventually.of_forall fun x => (Real.exp_pos _).le), ← h5]
    · simp
    · have : d.pdf = densityM m S := funext hpdf
      rw [this]
      exact (measurable_densityM m S).aestronglyMeasurable
  · intro x hx
    refine Real.exp_lt_exp.2 ?_
    unfold NormalM.logpdf NormalM.mahalanobis
    rw [hd.precision, sub_self, zero_vecMul, zero_dotProduct, ← dotProduct_mulVec]
    have h5 := hS.inv.dotProduct_mulVec_pos (sub_ne_zero.2 hx)
    rw [star_trivial] at h5
    linarith

/-- **C146** `KLDivergence` of two distributions with positive definite covariances is never negative and is zero for equal
distributions only. -/
theorem C146_vector_divergence {E : Eig n} (hE : E.Right) (m m' : Fin n → ℝ) (S S' : Matrix (Fin n) (Fin n) ℝ) (hS : S.PosDef)
    (hS' : S'.PosDef) (d d' : NormalM n) (hd : NormalM.make E m S = some d) (hd' : NormalM.make E m' S' = some d') :
    0 ≤ d.divergence d' ∧ (d.divergence d' = 0 ↔ m = m' ∧ S = S') := by
  have hmk : ∀ m S d, S.PosDef → NormalM.make E m S = some d → d.Is m S := by
    intro m S d hS h
    obtain ⟨h1, h2, h3, h4⟩ := set_ok hE ⟨m, 0, 0, 0, 0, 0⟩ S
    unfold NormalM.make at h
    have h5 := h1.2 hS.posSemidef
    have h6 := h4 hS
    rcases hx : NormalM.setCovariance E ⟨m, 0, 0, 0, 0, 0⟩ S with ⟨a, b⟩
    rw [hx] at h5 h h6
    simp only at h5
    subst h5
    simp only [Option.some.injEq] at h
    rw [← h]
    exact h6
  have i := hmk m S d hS hd
  have i' := hmk m' S' d' hS' hd'
  have p := hS.det_pos
  have p' := hS'.det_pos
  have hdi : S'⁻¹.det = S'.det⁻¹ := by rw [det_nonsing_inv, Ring.inverse_eq_inv']
  obtain ⟨h1, h2⟩ := logdet_mul hS'.inv hS
  rw [hdi] at h1 h2
  have hlog : Real.log (S'.det / S.det) = -Real.log (S'.det⁻¹ * S.det) := by
    rw [← Real.log_inv, mul_inv, inv_inv, div_eq_mul_inv]
  have hq : 0 ≤ (m - m') ⬝ᵥ S'⁻¹ *ᵥ (m - m') := by
    have := hS'.inv.posSemidef.dotProduct_mulVec_nonneg (m - m')
    rwa [star_trivial] at this
  have hdiv : d.divergence d' = 1 / 2 * (-Real.log (S'.det⁻¹ * S.det) + ((S'⁻¹ * S).trace - n) + (m - m') ⬝ᵥ S'⁻¹ *ᵥ (m - m')) := by
    unfold NormalM.divergence
    rw [i.mean, i.cov, i.det, i'.mean, i'.precision, i'.det, hlog, ← dotProduct_mulVec]
    ring
  rw [hdiv]
  refine ⟨by linarith, ?_, ?_⟩
  · intro h0
    have h3 : Real.log (S'.det⁻¹ * S.det) = (S'⁻¹ * S).trace - n := by linarith
    have h4 := h2 h3
    have h5 : (m - m') ⬝ᵥ S'⁻¹ *ᵥ (m - m') = 0 := by linarith
    refine ⟨?_, ?_⟩
    · by_contra hne
      have := hS'.inv.dotProduct_mulVec_pos (sub_ne_zero.2 hne)
      rw [star_trivial] at this
      linarith
    · have h6 : S' * (S'⁻¹ * S) = S' * 1 := by rw [h4]
      rw [← Matrix.mul_assoc, mul_nonsing_inv _ (isUnit_iff_ne_zero.2 p'.ne'), Matrix.one_mul, Matrix.mul_one] at h6
      exact h6
  · rintro ⟨rfl, rfl⟩
    rw [nonsing_inv_mul _ (isUnit_iff_ne_zero.2 p.ne'), inv_mul_cancel₀ p.ne']
    simp

/-- **C146** The zero matrix, for which there is no density, is accepted although the message asks for a positive definite one. -/
theorem C146_singular_counterexample {E : Eig n} (hE : E.Right) (m : Fin n → ℝ) :
    ∃ d, NormalM.make E m 0 = some d ∧ d.cov = 0 ∧ (0 < n → ¬ d.cov.PosDef) := by
  obtain ⟨h1, h2, h3, h4⟩ := set_ok hE ⟨m, 0, 0, 0, 0, 0⟩ (0 : Matrix (Fin n) (Fin n) ℝ)
  have h5 := h1.2 PosSemidef.zero
  have h6 := h3 PosSemidef.zero
  unfold NormalM.make
  rcases hx : NormalM.setCovariance E ⟨m, 0, 0, 0, 0, 0⟩ (0 : Matrix (Fin n) (Fin n) ℝ) with ⟨a, b⟩
  rw [hx] at h5 h6
  simp only at h5 h6
  subst h5
  refine ⟨a, rfl, h6, fun hn hp => ?_⟩
  rw [h6] at hp
  have := hp.diag_pos (i := ⟨0, hn⟩)
  simp at this

/-- **C146** A covariance that is refused changes the samples all the same, when the factor of a negative number is, as in
Eigen, the number itself: the covariance is 1, and after the refused -4 the samples are those of the covariance 16. -/
theorem C146_refused_counterexample {E : Eig 1} (hE : E.Right) (hneg : ∀ a : ℝ, a < 0 → E.llt !![a] = !![a]) (d : NormalM 1)
    (z : Fin 1 → ℝ) :
    (d.setCovariance E !![-4]).2 = false ∧ (d.setCovariance E !![-4]).1.cov = d.cov ∧
    (d.setCovariance E !![-4]).1.sample z = d.mean + (-4 : ℝ) • z := by
  have hns : ¬ (!![-4] : Matrix (Fin 1) (Fin 1) ℝ).PosSemidef := by
    intro h
    have := h.diag_nonneg (i := 0)
    norm_num at this
  have hsym : (!![-4] : Matrix (Fin 1) (Fin 1) ℝ)ᵀ = !![-4] := by
    ext i j
    fin_cases i
    fin_cases j
    rfl
  have h1 : E.isPositive !![-4] = false := by
    rw [← Bool.not_eq_true]
    exact fun h => hns ((hE.isPositive _ hsym).1 h)
  unfold NormalM.setCovariance
  rw [if_neg (not_not.2 hsym)]
  dsimp only
  rw [if_pos h1]
  refine ⟨rfl, rfl, ?_⟩
  unfold NormalM.sample
  rw [hneg _ (by norm_num)]
  funext i
  fin_cases i
  simp [mulVec, dotProduct]

example : ∀ a : ℝ, a < 0 → (exact 1).llt !![a] = !![a] := by
  intro a ha
  unfold exact
  dsimp only
  rw [dif_neg]
  intro h
  have := h.diag_nonneg (i := 0)
  simp at this
  linarith

/-- A distribution of pairs with correlated entries. -/
example : ∃ d, NormalM.make (exact 2) ![1, 2] !![2, 1; 1, 2] = some d ∧ ∫ x, d.pdf x = 1 := by
  have hp : (!![2, 1; 1, 2] : Matrix (Fin 2) (Fin 2) ℝ).PosDef := by
    refine Matrix.PosDef.of_dotProduct_mulVec_pos ?_ ?_
    · ext i j
      fin_cases i <;> fin_cases j <;> simp
    · intro x hx
      have hne : x 0 ≠ 0 ∨ x 1 ≠ 0 := by
        by_contra hn
        push Not at hn
        exact hx (funext fun i => by fin_cases i <;> simp [hn.1, hn.2])
      simp [dotProduct, mulVec, Fin.sum_univ_succ]
      rcases hne with h | h <;> nlinarith [sq_nonneg (x 0 + x 1), sq_nonneg (x 0), sq_nonneg (x 1), sq_pos_of_ne_zero h]
  obtain ⟨d, h1, _, _, _, _, h2, _⟩ := C146_vector_density exact_right ![1, 2] _ hp
  exact ⟨d, h1, h2⟩

end Kalibr.Stats
