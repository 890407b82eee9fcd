import Verif.Stats.Spec
import Mathlib.Analysis.SpecialFunctions.Gaussian.GaussianIntegral
import Mathlib.Probability.Moments.Variance

/-!
# The normal distribution of a number
-/

namespace Kalibr.Stats

open Matrix ProbabilityTheory MeasureTheory

/-- The members of a normal distribution agree with its mean and its variance. -/
structure Normal1.Is (d : Normal1) (m v : ℝ) : Prop where
  pos : 0 < v
  mean : d.mean = m
  variance : d.variance = v
  precision : d.precision = 1 / v
  std : d.std = Real.sqrt v
  normalizer : d.normalizer = 1 / 2 * Real.log (2 * Real.pi * v)

theorem setVariance_some {d d' : Normal1} {v : ℝ} (h : d.setVariance v = some d') : d'.Is d.mean v := by
  unfold Normal1.setVariance at h
  by_cases hv : v ≤ 0
  · simp [hv] at h
  · rw [if_neg hv, Option.some.injEq] at h
    subst h
    exact ⟨not_le.1 hv, rfl, rfl, rfl, rfl, rfl⟩

theorem run_is {d : Normal1} {m v : ℝ} (h : d.Is m v) (ops : List NOp) :
    (ops.foldl Normal1.run d).Is (lastMean m ops) (lastVar v ops) := by
  induction ops generalizing d m v with
  | nil => exact h
  | cons o os ih =>
    cases o with
    | setMean a => exact ih (d := d.setMean a) (m := a) (v := v) ⟨h.pos, rfl, h.variance, h.precision, h.std, h.normalizer⟩
    | setVariance w =>
      rw [List.foldl_cons]
      unfold lastMean lastVar
      by_cases hw : w ≤ 0
      · have : d.run (.setVariance w) = d := by simp [Normal1.run, Normal1.setVariance, hw]
        rw [this, if_neg (not_lt.2 hw)]
        exact ih h
      · rw [if_pos (not_le.1 hw)]
        apply ih
        have h1 : d.setVariance w = some (d.run (.setVariance w)) := by simp [Normal1.run, Normal1.setVariance, hw]
        have h2 := setVariance_some h1
        rw [h.mean] at h2
        exact h2

theorem pdf_density {d : Normal1} {m v : ℝ} (h : d.Is m v) (x : ℝ) : d.pdf x = density m v x := by
  have hv := h.pos
  have h1 : (0 : ℝ) < 2 * Real.pi * v := by positivity
  unfold Normal1.pdf Normal1.logpdf Normal1.mahalanobis density gaussianPDFReal
  rw [h.mean, h.precision, h.normalizer, Real.coe_toNNReal _ hv.le, sub_eq_add_neg, Real.exp_add, mul_comm]
  congr 1
  · rw [Real.sqrt_eq_rpow, ← Real.rpow_neg h1.le, Real.rpow_def_of_pos h1]
    congr 1
    ring
  · congr 1
    field_simp

theorem density_one {m v : ℝ} (hv : 0 < v) : ∫ x, density m v x = 1 :=
  integral_gaussianPDFReal_eq_one m (by simpa using hv)

theorem density_pos {m v : ℝ} (hv : 0 < v) (x : ℝ) : 0 < density m v x :=
  gaussianPDFReal_pos m _ x (by simpa using hv)

theorem log_density {m v : ℝ} (hv : 0 < v) (x : ℝ) :
    Real.log (density m v x) = -((x - m) ^ 2 / (2 * v)) - 1 / 2 * Real.log (2 * Real.pi * v) := by
  have h1 : (0 : ℝ) < 2 * Real.pi * v := by positivity
  unfold density gaussianPDFReal
  rw [Real.coe_toNNReal _ hv.le, Real.log_mul (by positivity) (Real.exp_ne_zero _), Real.log_exp, Real.log_inv, Real.log_sqrt h1.le]
  ring

/-- **C146** After any calls of the setters the members of a normal distribution agree: the mean is the last one given, the
variance the last positive one given, the precision its inverse and the standard deviation its positive root. -/
theorem C146_members (m v : ℝ) (ops : List NOp) :
    (Normal1.make m v = none ↔ v ≤ 0) ∧
    ∀ d, Normal1.make m v = some d →
      let e := ops.foldl Normal1.run d
      e.mean = lastMean m ops ∧ e.variance = lastVar v ops ∧ 0 < e.variance ∧ e.precision * e.variance = 1 ∧
        0 < e.std ∧ e.std ^ 2 = e.variance ∧ e.median = e.mean ∧ e.mode = e.mean := by
  constructor
  · unfold Normal1.make Normal1.setVariance
    by_cases h : v ≤ 0 <;> simp [h]
  · intro d hd e
    have h := run_is (setVariance_some hd) ops
    have hp := h.pos
    refine ⟨h.mean, h.variance, by rw [h.variance]; exact hp, ?_, ?_, ?_, rfl, rfl⟩
    · show e.precision * e.variance = 1
      rw [h.variance, h.precision]
      field_simp
    · show 0 < e.std
      rw [h.std]
      positivity
    · show e.std ^ 2 = e.variance
      rw [h.std, h.variance, Real.sq_sqrt hp.le]

/-- **C146** The values returned by `pdf` are those of the density of the normal distribution with the mean and the variance
that the getters return: the integral is one, the mean and the variance are its moments, the mode is its only maximum,
and `logpdf` is its logarithm. -/
theorem C146_density (m v : ℝ) (ops : List NOp) (d0 d : Normal1) (h0 : Normal1.make m v = some d0)
    (hd : d = ops.foldl Normal1.run d0) :
    (∀ x, d.pdf x = density d.mean d.variance x ∧ 0 < d.pdf x ∧ d.logpdf x = Real.log (d.pdf x)) ∧
    (∫ x, d.pdf x = 1) ∧ (∫ x, x * d.pdf x = d.mean) ∧ (∫ x, (x - d.mean) ^ 2 * d.pdf x = d.variance) ∧
    ∀ x, x ≠ d.mode → d.pdf x < d.pdf d.mode := by
  have h := run_is (setVariance_some h0) ops
  rw [← hd] at h
  rw [← h.mean, ← h.variance] at h
  have hpdf : ∀ x, d.pdf x = density d.mean d.variance x := pdf_density h
  have hp := h.pos
  have hne : d.variance.toNNReal ≠ 0 := by simpa using hp
  refine ⟨fun x => ⟨hpdf x, Real.exp_pos _, (Real.log_exp _).symm⟩, ?_, ?_, ?_, ?_⟩
  · simp only [hpdf]
    exact density_one hp
  · have h1 := integral_gaussianReal_eq_integral_smul (μ := d.mean) hne (f := fun x : ℝ => x)
    rw [integral_id_gaussianReal] at h1
    simp only [hpdf]
    refine Eq.trans ?_ h1.symm
    refine integral_congr_ae (Filter.Eventually.of_forall fun x => ?_)
    simp [density, mul_comm]
  · have h1 := integral_gaussianReal_eq_integral_smul (μ := d.mean) hne (f := fun x : ℝ => (x - d.mean) ^ 2)
    have h2 : variance (fun x : ℝ => x) (gaussianReal d.mean d.variance.toNNReal) = d.variance := by
      have := variance_id_gaussianReal (μ := d.mean) (v := d.variance.toNNReal)
      rw [Real.coe_toNNReal _ hp.le] at this
      exact this
    rw [variance_eq_integral (by fun_prop), integral_id_gaussianReal] at h2
    rw [h2] at h1
    simp only [hpdf]
    refine Eq.trans ?_ h1.symm
    refine integral_congr_ae (Filter.Eventually.of_forall fun x => ?_)
    simp [density, mul_comm]
  · intro x hx
    refine Real.exp_lt_exp.2 ?_
    unfold Normal1.logpdf Normal1.mahalanobis Normal1.mode at *
    rw [h.precision]
    have : 0 < (x - d.mean) ^ 2 := by
      have := sub_ne_zero.2 hx
      positivity
    have h3 : (x - d.mean) * (1 / d.variance) * (x - d.mean) = (x - d.mean) ^ 2 / d.variance := by ring
    have h4 : 0 < (x - d.mean) ^ 2 / d.variance := by positivity
    rw [h3]
    simp only [sub_self, zero_mul, mul_zero]
    linarith

theorem density_half {m v : ℝ} (hv : 0 < v) : ∫ x in Set.Iic m, density m v x = 1 / 2 := by
  have hi : Integrable (density m v) := integrable_gaussianPDFReal m _
  have h1 := integral_sub_left_eq_self ((Set.Iic m).indicator (density m v)) volume (2 * m)
  have h2 : (fun t => (Set.Iic m).indicator (density m v) (2 * m - t)) = (Set.Ici m).indicator (density m v) := by
    funext t
    by_cases ht : m ≤ t
    · rw [Set.indicator_of_mem (by simp only [Set.mem_Iic]; linarith), Set.indicator_of_mem (by simpa using ht)]
      unfold density gaussianPDFReal
      congr 2
      ring
    · rw [Set.indicator_of_notMem (by simp only [Set.mem_Iic]; linarith), Set.indicator_of_notMem (by simpa using ht)]
  rw [h2, integral_indicator measurableSet_Ici, integral_indicator measurableSet_Iic, integral_Ici_eq_integral_Ioi] at h1
  have h3 := intervalIntegral.integral_Iic_add_Ioi (b := m) hi.integrableOn hi.integrableOn
  rw [h1, density_one hv] at h3
  linarith

/-- **C146** `cdf` returns the probability of a value that is not larger; it grows, and it is one half at the median. -/
theorem C146_cumulative (m v : ℝ) (ops : List NOp) (d0 d : Normal1) (h0 : Normal1.make m v = some d0)
    (hd : d = ops.foldl Normal1.run d0) :
    (∀ x, d.cdf x = ∫ t in Set.Iic x, d.pdf t) ∧ StrictMono d.cdf ∧ d.cdf d.median = 1 / 2 := by
  have h := run_is (setVariance_some h0) ops
  rw [← hd] at h
  rw [← h.mean, ← h.variance] at h
  have hpdf : ∀ x, d.pdf x = density d.mean d.variance x := pdf_density h
  have hp := h.pos
  have hi : Integrable (density d.mean d.variance) := integrable_gaussianPDFReal _ _
  obtain ⟨c, hc⟩ : ∃ c, c = Real.sqrt (2 * d.variance) := ⟨_, rfl⟩
  have hcp : 0 < c := by rw [hc]; positivity
  have hc2 : c ^ 2 = 2 * d.variance := by rw [hc, Real.sq_sqrt (by positivity)]
  have hcdf : ∀ x, d.cdf x = 1 / 2 + ∫ t in d.mean..x, density d.mean d.variance t := by
    intro x
    unfold Normal1.cdf erf
    rw [← hc]
    have h1 := intervalIntegral.integral_comp_sub_right (a := d.mean) (b := x) (fun y => Real.exp (-(y / c) ^ 2)) d.mean
    have h2 := intervalIntegral.integral_comp_div (a := 0) (b := x - d.mean) (fun y => Real.exp (-y ^ 2)) hcp.ne'
    rw [sub_self, h2, zero_div, smul_eq_mul] at h1
    have h3 : ∀ t, density d.mean d.variance t = (Real.sqrt Real.pi * c)⁻¹ * Real.exp (-((t - d.mean) / c) ^ 2) := by
      intro t
      unfold density gaussianPDFReal
      rw [Real.coe_toNNReal _ hp.le, div_pow, hc2]
      congr 2
      · rw [hc, ← Real.sqrt_mul Real.pi_pos.le]
        congr 1
        ring
      · ring
    simp only [h3]
    rw [intervalIntegral.integral_const_mul, h1]
    field_simp
  have hrec : ∀ x, d.cdf x = ∫ t in Set.Iic x, d.pdf t := by
    intro x
    simp only [hpdf]
    have h1 := intervalIntegral.integral_Iic_sub_Iic (a := d.mean) (b := x) (μ := volume) hi.integrableOn hi.integrableOn
    rw [density_half hp] at h1
    rw [hcdf]
    linarith
  refine ⟨hrec, ?_, ?_⟩
  · intro x y hxy
    have h1 := intervalIntegral.integral_Iic_sub_Iic (a := x) (b := y) (μ := volume) hi.integrableOn hi.integrableOn
    have h2 : 0 < ∫ t in x..y, density d.mean d.variance t :=
      intervalIntegral.intervalIntegral_pos_of_pos hi.intervalIntegrable (fun t => density_pos hp t) hxy
    rw [hrec, hrec]
    simp only [hpdf]
    linarith
  · rw [hcdf]
    simp [Normal1.median]

/-- **C146** `KLDivergence` is the expected difference of the logarithms of the densities; it is never negative and it is zero
for equal distributions only. -/
theorem C146_divergence (m v m' v' : ℝ) (ops ops' : List NOp) (d0 d e0 e : Normal1) (h0 : Normal1.make m v = some d0)
    (hd : d = ops.foldl Normal1.run d0) (g0 : Normal1.make m' v' = some e0) (he : e = ops'.foldl Normal1.run e0) :
    d.divergence e = (∫ x, d.pdf x * (d.logpdf x - e.logpdf x)) ∧ 0 ≤ d.divergence e ∧
    (d.divergence e = 0 ↔ d.mean = e.mean ∧ d.variance = e.variance) := by
  have h := run_is (setVariance_some h0) ops
  rw [← hd] at h
  rw [← h.mean, ← h.variance] at h
  have g := run_is (setVariance_some g0) ops'
  rw [← he] at g
  rw [← g.mean, ← g.variance] at g
  have hp := h.pos
  have gp := g.pos
  have hpdf : ∀ x, d.pdf x = density d.mean d.variance x := pdf_density h
  obtain ⟨a, ha⟩ : ∃ a, a = d.mean := ⟨_, rfl⟩
  obtain ⟨w, hw⟩ : ∃ w, w = d.variance := ⟨_, rfl⟩
  obtain ⟨b, hb⟩ : ∃ b, b = e.mean := ⟨_, rfl⟩
  obtain ⟨u, hu⟩ : ∃ u, u = e.variance := ⟨_, rfl⟩
  have hdiv : d.divergence e = 1 / 2 * (Real.log (u / w) + w / u - 1 + (a - b) ^ 2 / u) := by
    unfold Normal1.divergence
    rw [h.precision, g.precision, ← ha, ← hw, ← hb, ← hu, mul_one_div]
    ring
  rw [← ha, ← hw] at h hpdf
  rw [← hb, ← hu] at g
  rw [← hw] at hp
  rw [← hu] at gp
  have hlog : Real.log (w / u) = -Real.log (u / w) := by rw [← Real.log_inv, inv_div]
  have hq : 0 ≤ (a - b) ^ 2 / u := by positivity
  refine ⟨?_, ?_, ?_⟩
  · have hne : w.toNNReal ≠ 0 := by simpa using hp
    have hG : ∀ f : ℝ → ℝ, ∫ x, d.pdf x * f x = ∫ x, f x ∂(gaussianReal a w.toNNReal) := by
      intro f
      rw [integral_gaussianReal_eq_integral_smul hne]
      simp only [hpdf]
      rfl
    have hm := memLp_id_gaussianReal (μ := a) (v := w.toNNReal) 2
    have hm2 : MemLp (fun x : ℝ => x - a) 2 (gaussianReal a w.toNNReal) := hm.sub (memLp_const a)
    have i1 : Integrable (fun x : ℝ => (x - a) ^ 2) (gaussianReal a w.toNNReal) := hm2.integrable_sq
    have i2 : Integrable (fun x : ℝ => x - a) (gaussianReal a w.toNNReal) := hm2.integrable (by norm_num)
    have i3 : Integrable (fun x : ℝ => x) (gaussianReal a w.toNNReal) := hm.integrable (by norm_num)
    have e1 : ∫ x, (x - a) ^ 2 ∂(gaussianReal a w.toNNReal) = w := by
      have := variance_id_gaussianReal (μ := a) (v := w.toNNReal)
      rw [Real.coe_toNNReal _ hp.le] at this
      have h2 : variance (fun x : ℝ => x) (gaussianReal a w.toNNReal) = w := this
      rw [variance_eq_integral (by fun_prop), integral_id_gaussianReal] at h2
      exact h2
    have e2 : ∫ x, (x - a) ∂(gaussianReal a w.toNNReal) = 0 := by
      rw [integral_sub i3 (integrable_const a), integral_id_gaussianReal]
      simp
    rw [hG, hdiv]
    have hf : ∀ x, d.logpdf x - e.logpdf x =
        (1 / (2 * u) - 1 / (2 * w)) * (x - a) ^ 2 + ((a - b) / u) * (x - a) + ((a - b) ^ 2 / (2 * u) + 1 / 2 * Real.log (u / w)) := by
      intro x
      unfold Normal1.logpdf Normal1.mahalanobis
      rw [h.mean, g.mean, h.precision, g.precision, h.normalizer, g.normalizer, Real.log_div gp.ne' hp.ne',
        Real.log_mul (by positivity) hp.ne', Real.log_mul (by positivity) gp.ne']
      field_simp
      ring
    simp only [hf]
    rw [integral_add (Integrable.fun_add (i1.const_mul _) (i2.const_mul _)) (integrable_const _), integral_add (i1.const_mul _) (i2.const_mul _),
      integral_const_mul, integral_const_mul, e1, e2]
    simp
    field_simp
    ring
  · have h1 := Real.log_le_sub_one_of_pos (show 0 < w / u by positivity)
    rw [hdiv]
    linarith
  · rw [hdiv, ← ha, ← hw, ← hb, ← hu]
    constructor
    · intro h1
      have h2 : w / u = 1 := by
        by_contra hne
        have := Real.log_lt_sub_one_of_pos (show 0 < w / u by positivity) hne
        linarith
      have h3 : w = u := by field_simp at h2; exact h2
      rw [h2, Real.log_one] at hlog
      have h4 : (a - b) ^ 2 / u = 0 := by linarith
      have h5 : (a - b) ^ 2 = 0 := by
        rcases div_eq_zero_iff.1 h4 with h | h
        · exact h
        · exact absurd h gp.ne'
      exact ⟨by nlinarith [pow_eq_zero_iff (two_ne_zero) |>.1 h5], h3⟩
    · rintro ⟨rfl, rfl⟩
      rw [div_self hp.ne']
      simp

example : ∃ d0 e0, Normal1.make 3 4 = some d0 ∧ Normal1.make 3 9 = some e0 ∧
    ([.setVariance (-1), .setMean 5, .setVariance 2].foldl Normal1.run d0).variance = 2 := by
  have h : ¬ (2 : ℝ) ≤ 0 := by norm_num
  simp [Normal1.make, Normal1.setVariance, Normal1.run, Normal1.setMean, h]

end Kalibr.Stats
