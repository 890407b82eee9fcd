import Verif.Stats.Model
import Mathlib.Probability.Distributions.Gamma
import Mathlib.NumberTheory.Harmonic.GammaDeriv

/-!
# The gamma and chi square distributions, the logarithms of the factorial and of the gamma function

Sources, in `/repo/aslam_incremental_calibration/aslam_incremental_calibration/`:
`include/aslam_incremental_calibration/statistics/GammaDistribution.tpp`, `src/statistics/ChiSquareDistribution.cpp`,
`include/aslam_incremental_calibration/functions/LogGammaFunction.tpp`, `DigammaFunction.tpp`,
`src/functions/LogGammaFunction.cpp`, `LogFactorialFunction.cpp`, `IncompleteGammaPFunction.cpp`.

Simplifications: exact real arithmetic; the functions of the C library and of Boost are the functions they approximate;
a positive infinity of the floating point numbers is `⊤`.  `invcdf` (a quantile of Boost), the approximate median of the
chi square distribution, sampling, and copying are not modelled.  The constructor calls `setShape` while the scale is not
set; the normalizer computed there is overwritten by the next call and not modelled.
-/

namespace Kalibr.Stats

open MeasureTheory ProbabilityTheory Set

/-! ## Model -/

/-- `LogFactorialFunction::getValue`, `LogFactorialFunction.cpp` 40-49. -/
noncomputable def logFactorial (n : ℕ) : ℝ :=
  if n ≠ 0 then (List.range' 1 (n - 1)).foldl (fun (v : ℝ) (x : ℕ) => v + Real.log ((x : ℝ) + 1)) 0 else 0

/-- `LogGammaFunction<size_t>::getValue`, `LogGammaFunction.cpp` 42-51. -/
noncomputable def logGammaN (n : ℕ) : Out ℝ := if n ≠ 0 then .ok (logFactorial (n - 1)) else .raise

/-- `LogGammaFunction<X>::getValue`, `LogGammaFunction.tpp` 77-84; the `lgamma` of the C library is the logarithm of the
absolute value of the gamma function. -/
noncomputable def logGamma (dim : ℕ) (x : ℝ) : ℝ :=
  (List.range dim).foldl (fun (s : ℝ) (i : ℕ) => s + Real.log |Real.Gamma (x - 1 / 2 * i)|) 0 + dim * (dim - 1) * (1 / 4) * Real.log Real.pi

/-- `DigammaFunction::getValue`, `DigammaFunction.tpp` 41-44. -/
noncomputable def digamma (x : ℝ) : ℝ := deriv Real.Gamma x / Real.Gamma x

/-- `IncompleteGammaPFunction::getValue`, `IncompleteGammaPFunction.cpp` 70-73: the regularized lower incomplete gamma
function of Boost. -/
noncomputable def gammaP (a x : ℝ) : ℝ := (∫ t in (0 : ℝ)..x, t ^ (a - 1) * Real.exp (-t)) / Real.Gamma a

/-- `GammaDistribution<double>`, `GammaDistribution.h` 120-124. -/
structure GammaD where
  shape : ℝ
  rate : ℝ
  normalizer : ℝ

/-- `computeNormalizer`, `GammaDistribution.tpp` 121-125. -/
noncomputable def GammaD.compute (d : GammaD) : GammaD :=
  { d with normalizer := logGamma 1 d.shape - d.shape * Real.log d.rate }

/-- `setShape`, lines 90-98; `none` when it throws, which leaves the object as it is. -/
noncomputable def GammaD.setShape (d : GammaD) (a : ℝ) : Option GammaD :=
  if a ≤ 0 then none else some ({ d with shape := a } : GammaD).compute

/-- `setInvScale`, lines 105-114. -/
noncomputable def GammaD.setRate (d : GammaD) (r : ℝ) : Option GammaD :=
  if r ≤ 0 then none else some ({ d with rate := r } : GammaD).compute

/-- The constructor, lines 33-37. -/
noncomputable def GammaD.make (a r : ℝ) : Option GammaD := (GammaD.setShape ⟨0, 0, 0⟩ a).bind fun d => d.setRate r

/-- A call of a setter. -/
inductive GOp where
  | setShape (a : ℝ)
  | setRate (r : ℝ)

/-- The object after a call whose exception, if any, is caught by the caller. -/
noncomputable def GammaD.run (d : GammaD) : GOp → GammaD
  | .setShape a => (d.setShape a).getD d
  | .setRate r => (d.setRate r).getD d

/-- `pdf` and `logpdf`, lines 132-146: at zero the logarithm is the negative infinity, times `shape - 1`. -/
noncomputable def GammaD.pdf (d : GammaD) (x : ℝ) : ENNReal :=
  if x < 0 then 0
  else if x = 0 ∧ d.shape = 1 then ENNReal.ofReal (Real.exp (-d.normalizer))
  else if x = 0 then (if 1 < d.shape then 0 else ⊤)
  else ENNReal.ofReal (Real.exp ((d.shape - 1) * Real.log x - x * d.rate - d.normalizer))

/-- `cdf`, lines 148-155. -/
noncomputable def GammaD.cdf (d : GammaD) (x : ℝ) : ℝ := if x ≤ 0 then 0 else gammaP d.shape (x * d.rate)

/-- `getMean`, lines 176-179. -/
noncomputable def GammaD.mean (d : GammaD) : ℝ := d.shape / d.rate

/-- `getMode`, lines 181-188; `none` when it throws. -/
noncomputable def GammaD.mode (d : GammaD) : Option ℝ := if d.shape ≥ 1 then some ((d.shape - 1) / d.rate) else none

/-- `getVariance`, lines 190-194. -/
noncomputable def GammaD.variance (d : GammaD) : ℝ := d.shape / (d.rate * d.rate)

/-- `KLDivergence`, lines 196-207. -/
noncomputable def GammaD.divergence (d o : GammaD) : ℝ :=
  (d.shape - 1) * digamma d.shape - (o.shape - 1) * digamma o.shape - logGamma 1 d.shape + logGamma 1 o.shape +
    o.shape * (Real.log d.rate - Real.log o.rate) + d.shape * (1 / d.rate - 1 / o.rate) * o.rate

/-- The constructor of `ChiSquareDistribution`, `ChiSquareDistribution.cpp` 28-30. -/
noncomputable def chiSquare (k : ℝ) : Option GammaD := GammaD.make (1 / 2 * k) (1 / 2)

/-- `setDegrees`, lines 73-75. -/
noncomputable def GammaD.setDegrees (d : GammaD) (k : ℝ) : Option GammaD := d.setShape (k * (1 / 2))

/-- `getDegrees`, lines 77-79. -/
def GammaD.degrees (d : GammaD) : ℝ := d.shape * 2

/-! ## What is expected -/

/-- Shape and rate after a sequence of calls: the last positive ones given. -/
noncomputable def lastGamma : ℝ × ℝ → List GOp → ℝ × ℝ
  | s, [] => s
  | s, .setShape a :: os => lastGamma (if 0 < a then (a, s.2) else s) os
  | s, .setRate r :: os => lastGamma (if 0 < r then (s.1, r) else s) os

/-! ## The logarithms -/

theorem foldl_log (f : ℕ → ℝ) (l : List ℕ) (v : ℝ) : l.foldl (fun v x => v + f x) v = v + (l.map f).sum := by
  induction l generalizing v with
  | nil => simp
  | cons a l ih => rw [List.foldl_cons, ih, List.map_cons, List.sum_cons, add_assoc]

theorem logFactorial_succ (n : ℕ) : logFactorial (n + 1) = logFactorial n + Real.log (n + 1) := by
  unfold logFactorial
  rw [if_pos (Nat.succ_ne_zero n), Nat.add_sub_cancel]
  cases n with
  | zero => simp
  | succ m =>
    rw [if_pos (Nat.succ_ne_zero m), Nat.add_sub_cancel, List.range'_1_concat, List.foldl_append, List.foldl_cons, List.foldl_nil]
    push_cast
    rw [show (1 + (m : ℝ) + 1) = (m : ℝ) + 1 + 1 by ring]

/-- C149: the logarithm of the factorial is the one of the factorial, the one of the gamma function of an integer is
refused exactly at zero and is otherwise the one of the gamma function, and with a dimension it is the one of the gamma
function of several dimensions. -/
theorem C149_functions :
    (∀ n, logFactorial n = Real.log (n.factorial : ℝ)) ∧
    logGammaN 0 = .raise ∧ (∀ n : ℕ, n ≠ 0 → logGammaN n = .ok (Real.log (Real.Gamma n))) ∧
    ∀ (dim : ℕ) (x : ℝ), ((dim : ℝ) - 1) / 2 < x →
      Real.exp (logGamma dim x) = Real.pi ^ ((dim : ℝ) * (dim - 1) / 4) * ∏ i ∈ Finset.range dim, Real.Gamma (x - i / 2) := by
  have h1 : ∀ n, logFactorial n = Real.log (n.factorial : ℝ) := by
    intro n
    induction n with
    | zero => simp [logFactorial]
    | succ n ih =>
      rw [logFactorial_succ, ih, Nat.factorial_succ, Nat.cast_mul, Real.log_mul (by positivity) (by positivity)]
      push_cast
      ring
  refine ⟨h1, ?_, ?_, ?_⟩
  · unfold logGammaN; rw [if_neg (by simp)]
  · intro n hn
    unfold logGammaN
    rw [if_pos hn, h1]
    obtain ⟨m, rfl⟩ := Nat.exists_eq_succ_of_ne_zero hn
    rw [Nat.succ_eq_add_one, Nat.add_sub_cancel, Nat.cast_add, Nat.cast_one, Real.Gamma_nat_eq_factorial]
  · intro dim x hx
    unfold logGamma
    rw [foldl_log (fun i => Real.log |Real.Gamma (x - 1 / 2 * i)|), zero_add, Real.exp_add, mul_comm,
      Real.rpow_def_of_pos Real.pi_pos]
    congr 1
    · congr 1
      ring
    · clear h1
      induction dim with
      | zero => simp
      | succ k ih =>
        have hk : (k : ℝ) / 2 < x := by push_cast at hx; linarith
        rw [List.range_succ, List.map_append, List.sum_append, Real.exp_add, ih (by linarith), Finset.prod_range_succ]
        congr 1
        rw [List.map_singleton, List.sum_singleton]
        have h2 : 0 < Real.Gamma (x - 1 / 2 * k) := Real.Gamma_pos_of_pos (by linarith)
        rw [abs_of_pos h2, Real.exp_log h2, show x - 1 / 2 * (k : ℝ) = x - k / 2 by ring]

example : ∃ x : ℝ, (((3 : ℕ) : ℝ) - 1) / 2 < x := ⟨2, by norm_num⟩

theorem logGamma_one {x : ℝ} (hx : 0 < x) : logGamma 1 x = Real.log (Real.Gamma x) := by
  unfold logGamma
  simp [abs_of_pos (Real.Gamma_pos_of_pos hx)]

/-! ## The distribution -/

/-- An object of the class. -/
def GammaD.Is (d : GammaD) : Prop :=
  0 < d.shape ∧ 0 < d.rate ∧ d.normalizer = Real.log (Real.Gamma d.shape) - d.shape * Real.log d.rate

theorem GammaD.of_make {a r : ℝ} {d : GammaD} (h : GammaD.make a r = some d) : d.Is ∧ d.shape = a ∧ d.rate = r := by
  unfold GammaD.make GammaD.setShape GammaD.setRate at h
  by_cases h1 : a ≤ 0
  · rw [if_pos h1] at h; cases h
  · rw [if_neg h1, Option.bind_some] at h
    by_cases h2 : r ≤ 0
    · rw [if_pos h2] at h; cases h
    · rw [if_neg h2] at h
      rw [← Option.some.inj h]
      refine ⟨⟨not_le.1 h1, not_le.1 h2, ?_⟩, rfl, rfl⟩
      show logGamma 1 a - a * Real.log r = _
      rw [logGamma_one (not_le.1 h1)]
      rfl

theorem GammaD.history (d : GammaD) (hd : d.Is) (os : List GOp) :
    (os.foldl GammaD.run d).Is ∧ ((os.foldl GammaD.run d).shape, (os.foldl GammaD.run d).rate) = lastGamma (d.shape, d.rate) os := by
  induction os generalizing d with
  | nil => exact ⟨hd, rfl⟩
  | cons o os ih =>
    rw [List.foldl_cons]
    cases o with
    | setShape a =>
      rw [show d.run (.setShape a) = (d.setShape a).getD d from rfl, lastGamma, GammaD.setShape]
      by_cases h : 0 < a
      · rw [if_neg (not_le.2 h), if_pos h]
        refine ih _ ⟨h, hd.2.1, ?_⟩
        show logGamma 1 a - _ = _
        rw [logGamma_one h]; rfl
      · rw [if_pos (not_lt.1 h), if_neg h]; exact ih _ hd
    | setRate r =>
      rw [show d.run (.setRate r) = (d.setRate r).getD d from rfl, lastGamma, GammaD.setRate]
      by_cases h : 0 < r
      · rw [if_neg (not_le.2 h), if_pos h]
        refine ih _ ⟨hd.1, h, ?_⟩
        show logGamma 1 d.shape - _ = _
        rw [logGamma_one hd.1]; rfl
      · rw [if_pos (not_lt.1 h), if_neg h]; exact ih _ hd

theorem GammaD.pdf_pos (d : GammaD) (hd : d.Is) {x : ℝ} (hx : 0 < x) :
    Real.exp ((d.shape - 1) * Real.log x - x * d.rate - d.normalizer) = gammaPDFReal d.shape d.rate x := by
  have hG := Real.Gamma_pos_of_pos hd.1
  unfold gammaPDFReal
  rw [if_pos hx.le, hd.2.2, Real.rpow_def_of_pos hd.2.1, Real.rpow_def_of_pos hx, div_eq_mul_inv, ← Real.exp_log (inv_pos.2 hG),
    ← Real.exp_add, ← Real.exp_add, ← Real.exp_add, Real.log_inv]
  congr 1
  ring

theorem GammaD.pdf_eq (d : GammaD) (hd : d.Is) {x : ℝ} (hx : x ≠ 0 ∨ 1 ≤ d.shape) :
    d.pdf x = gammaPDF d.shape d.rate x := by
  unfold GammaD.pdf gammaPDF
  by_cases h1 : x < 0
  · rw [if_pos h1, gammaPDFReal, if_neg (not_le.2 h1), ENNReal.ofReal_zero]
  · rw [if_neg h1]
    by_cases h2 : x = 0
    · have h3 : 1 ≤ d.shape := hx.resolve_left (fun h => h h2)
      subst h2
      by_cases h4 : d.shape = 1
      · rw [if_pos ⟨rfl, h4⟩, gammaPDFReal, if_pos le_rfl, h4, hd.2.2, h4]
        congr 1
        simp [Real.exp_log hd.2.1]
      · rw [if_neg (fun h => h4 h.2), if_pos rfl, if_pos (lt_of_le_of_ne h3 (Ne.symm h4)), gammaPDFReal, if_pos le_rfl,
          Real.zero_rpow (sub_ne_zero.2 h4)]
        simp
    · rw [if_neg (fun h => h2 h.1), if_neg h2, GammaD.pdf_pos d hd (lt_of_le_of_ne (not_lt.1 h1) (Ne.symm h2))]

theorem GammaD.pdf_ae (d : GammaD) (hd : d.Is) : d.pdf =ᵐ[volume] gammaPDF d.shape d.rate := by
  have h : ∀ᵐ x : ℝ, x ≠ 0 := by
    rw [ae_iff]
    simp
  filter_upwards [h] with x hx
  exact GammaD.pdf_eq d hd (Or.inl hx)

theorem gamma_integrable {a r : ℝ} (ha : 0 < a) (hr : 0 < r) : Integrable (gammaPDFReal a r) := by
  refine ⟨(measurable_gammaPDFReal a r).aestronglyMeasurable, ?_⟩
  rw [hasFiniteIntegral_iff_ofReal (Filter.Eventually.of_forall fun x => gammaPDFReal_nonneg ha hr x)]
  have := lintegral_gammaPDF_eq_one ha hr
  unfold gammaPDF at this
  rw [this]
  exact ENNReal.one_lt_top

theorem gamma_one {a r : ℝ} (ha : 0 < a) (hr : 0 < r) : ∫ x, gammaPDFReal a r x = 1 := by
  rw [integral_eq_lintegral_of_nonneg_ae (Filter.Eventually.of_forall fun x => gammaPDFReal_nonneg ha hr x)
    (measurable_gammaPDFReal a r).aestronglyMeasurable]
  have := lintegral_gammaPDF_eq_one ha hr
  unfold gammaPDF at this
  rw [this, ENNReal.toReal_one]

theorem gamma_shift {a r : ℝ} (ha : 0 < a) (hr : 0 < r) (x : ℝ) :
    x * gammaPDFReal a r x = a / r * gammaPDFReal (a + 1) r x := by
  unfold gammaPDFReal
  by_cases h : 0 ≤ x
  · rw [if_pos h, if_pos h, Real.Gamma_add_one ha.ne', Real.rpow_add hr, Real.rpow_one, add_sub_cancel_right]
    have hG := (Real.Gamma_pos_of_pos ha).ne'
    rcases h.eq_or_lt with h | h
    · subst h
      rw [Real.zero_rpow ha.ne']
      ring
    · rw [show x ^ a = x ^ (a - 1) * x by
        rw [← Real.rpow_add_one h.ne']; congr 1; ring]
      field_simp
  · rw [if_neg h, if_neg h]; ring

theorem gamma_mean {a r : ℝ} (ha : 0 < a) (hr : 0 < r) :
    Integrable (fun x => x * gammaPDFReal a r x) ∧ ∫ x, x * gammaPDFReal a r x = a / r := by
  simp_rw [gamma_shift ha hr]
  exact ⟨(gamma_integrable (by linarith) hr).const_mul _, by rw [integral_const_mul, gamma_one (by linarith) hr, mul_one]⟩

theorem gamma_second {a r : ℝ} (ha : 0 < a) (hr : 0 < r) :
    Integrable (fun x => x * (x * gammaPDFReal a r x)) ∧ ∫ x, x * (x * gammaPDFReal a r x) = a * (a + 1) / r ^ 2 := by
  have h : ∀ x, x * (x * gammaPDFReal a r x) = a / r * (x * gammaPDFReal (a + 1) r x) := by
    intro x; rw [gamma_shift ha hr]; ring
  simp_rw [h]
  obtain ⟨h1, h2⟩ := gamma_mean (a := a + 1) (by linarith) hr
  refine ⟨h1.const_mul _, ?_⟩
  rw [integral_const_mul, h2]
  field_simp

theorem GammaD.real_ae (d : GammaD) (hd : d.Is) : (fun x => (d.pdf x).toReal) =ᵐ[volume] gammaPDFReal d.shape d.rate := by
  filter_upwards [GammaD.pdf_ae d hd] with x hx
  rw [hx, gammaPDF, ENNReal.toReal_ofReal (gammaPDFReal_nonneg hd.1 hd.2.1 x)]

/-- C149: the constructor refuses a shape or a rate that is not positive; after it and any calls of the setters the
distribution is the gamma distribution of the last shape and the last rate that were accepted: its density is the one of
that distribution except at zero for a shape below one, where it is infinite, its integral is one, and the mean and the
variance it reports are those of its density. -/
theorem C149_density (a r : ℝ) :
    (GammaD.make a r = none ↔ a ≤ 0 ∨ r ≤ 0) ∧
    ∀ d, GammaD.make a r = some d → ∀ os e, e = os.foldl GammaD.run d → ∀ a' r', (a', r') = lastGamma (a, r) os →
      (e.shape, e.rate) = (a', r') ∧
      (∀ x, x ≠ 0 ∨ 1 ≤ a' → e.pdf x = gammaPDF a' r' x) ∧ (a' < 1 → e.pdf 0 = ⊤) ∧
      ∫⁻ x, e.pdf x = 1 ∧
      e.mean = ∫ x, x * (e.pdf x).toReal ∧
      e.variance = ∫ x, (x - ∫ y, y * (e.pdf y).toReal) ^ 2 * (e.pdf x).toReal := by
  constructor
  · unfold GammaD.make GammaD.setShape GammaD.setRate
    by_cases h1 : a ≤ 0
    · rw [if_pos h1]; simp [h1]
    · rw [if_neg h1, Option.bind_some]
      by_cases h2 : r ≤ 0
      · rw [if_pos h2]; simp [h2]
      · rw [if_neg h2]; simp [h1, h2]
  · intro d hd os e he a' r' har
    obtain ⟨h1, h2, h3⟩ := GammaD.of_make hd
    obtain ⟨h4, h5⟩ := GammaD.history d h1 os
    rw [← he] at h4 h5
    rw [h2, h3, ← har] at h5
    obtain ⟨h6, h7⟩ := Prod.mk.inj h5
    have hmean : (∫ y, y * (e.pdf y).toReal) = e.shape / e.rate := by
      rw [← (gamma_mean h4.1 h4.2.1).2]
      refine integral_congr_ae ?_
      filter_upwards [GammaD.real_ae e h4] with x hx
      rw [hx]
    refine ⟨h5, ?_, ?_, ?_, hmean.symm, ?_⟩
    · intro x hx
      rw [← h6, ← h7]
      exact GammaD.pdf_eq e h4 (h6 ▸ hx)
    · intro h
      unfold GammaD.pdf
      rw [if_neg (lt_irrefl _), if_neg (fun h8 => by linarith [h8.2]), if_pos rfl, if_neg (by linarith)]
    · rw [lintegral_congr_ae (GammaD.pdf_ae e h4), lintegral_gammaPDF_eq_one h4.1 h4.2.1]
    · rw [hmean]
      have hr := h4.2.1.ne'
      rw [integral_congr_ae (g := fun x => x * (x * gammaPDFReal e.shape e.rate x) +
        (-(2 * (e.shape / e.rate)) * (x * gammaPDFReal e.shape e.rate x) + (e.shape / e.rate) ^ 2 * gammaPDFReal e.shape e.rate x))]
      · rw [integral_add (gamma_second h4.1 h4.2.1).1 (((gamma_mean h4.1 h4.2.1).1.const_mul _).fun_add
          ((gamma_integrable h4.1 h4.2.1).const_mul _)), integral_add ((gamma_mean h4.1 h4.2.1).1.const_mul _)
          ((gamma_integrable h4.1 h4.2.1).const_mul _), integral_const_mul, integral_const_mul, gamma_one h4.1 h4.2.1,
          (gamma_mean h4.1 h4.2.1).2, (gamma_second h4.1 h4.2.1).2]
        unfold GammaD.variance
        field_simp
        ring
      · filter_upwards [GammaD.real_ae e h4] with x hx
        rw [hx]
        ring

/-- C149: the mode is refused exactly for a shape below one, and otherwise no value has a larger density. -/
theorem C149_mode (a r : ℝ) (d : GammaD) (h : GammaD.make a r = some d) :
    (d.mode = none ↔ a < 1) ∧ ∀ m, d.mode = some m → 0 ≤ m ∧ ∀ x, d.pdf x ≤ d.pdf m := by
  obtain ⟨h1, h2, h3⟩ := GammaD.of_make h
  constructor
  · unfold GammaD.mode
    rw [h2]
    by_cases h4 : a ≥ 1
    · rw [if_pos h4]; exact ⟨fun h => (by cases h), fun h5 => absurd h4 (not_le.2 h5)⟩
    · rw [if_neg h4]; exact ⟨fun _ => not_le.1 h4, fun _ => rfl⟩
  · intro m hm
    unfold GammaD.mode at hm
    by_cases h4 : d.shape ≥ 1
    · rw [if_pos h4] at hm
      have hm := Option.some.inj hm
      have h0 : 0 ≤ m := hm ▸ div_nonneg (by linarith) h1.2.1.le
      refine ⟨h0, fun x => ?_⟩
      rw [GammaD.pdf_eq d h1 (Or.inr h4), GammaD.pdf_eq d h1 (Or.inr h4)]
      by_cases hx : 0 < x
      · rcases (show (1 : ℝ) ≤ d.shape from h4).eq_or_lt with h5 | h5
        · have : m = 0 := by rw [← hm, ← h5]; simp
          subst this
          refine ENNReal.ofReal_le_ofReal ?_
          unfold gammaPDFReal
          rw [if_pos hx.le, if_pos le_rfl, ← h5]
          have hr := h1.2.1
          simp only [sub_self, Real.rpow_zero, mul_one, mul_zero, neg_zero, Real.exp_zero, Real.Gamma_one, div_one]
          have : Real.exp (-(d.rate * x)) ≤ 1 := Real.exp_le_one_iff.2 (by nlinarith)
          have : 0 < d.rate ^ (1 : ℝ) := by positivity
          exact mul_le_of_le_one_right this.le (by assumption)
        · have hmp : 0 < m := hm ▸ div_pos (by linarith) h1.2.1
          refine ENNReal.ofReal_le_ofReal ?_
          rw [← GammaD.pdf_pos d h1 hx, ← GammaD.pdf_pos d h1 hmp]
          refine Real.exp_le_exp.2 ?_
          have h6 := Real.log_le_sub_one_of_pos (div_pos hx hmp)
          rw [Real.log_div hx.ne' hmp.ne'] at h6
          have h7 : d.shape - 1 = m * d.rate := by rw [← hm]; field_simp [h1.2.1.ne']
          have h8 : (d.shape - 1) * (Real.log x - Real.log m) ≤ (d.shape - 1) * (x / m - 1) :=
            mul_le_mul_of_nonneg_left h6 (by linarith)
          have h9 : (d.shape - 1) * (x / m - 1) = x * d.rate - m * d.rate := by rw [h7]; field_simp
          linarith
      · rcases (not_lt.1 hx).eq_or_lt with h5 | h5
        · subst h5
          rcases (show (1 : ℝ) ≤ d.shape from h4).eq_or_lt with h6 | h6
          · have : m = 0 := by rw [← hm, ← h6]; simp
            rw [this]
          · refine ENNReal.ofReal_le_ofReal ?_
            refine le_trans (le_of_eq ?_) (gammaPDFReal_nonneg h1.1 h1.2.1 m)
            unfold gammaPDFReal
            rw [if_pos le_rfl, Real.zero_rpow (by linarith)]
            ring
        · rw [gammaPDF_of_neg h5]; exact bot_le
    · rw [if_neg h4] at hm; cases hm

/-- C149: the cumulative distribution is the integral of the density up to the value. -/
theorem C149_cumulative (a r : ℝ) (d : GammaD) (h : GammaD.make a r = some d) (x : ℝ) :
    d.cdf x = ∫ t in Iic x, (d.pdf t).toReal := by
  obtain ⟨h1, h2, h3⟩ := GammaD.of_make h
  have hr := h1.2.1
  have hG := (Real.Gamma_pos_of_pos h1.1).ne'
  have h4 : (∫ t in Iic x, (d.pdf t).toReal) = ∫ t in Iic x, gammaPDFReal d.shape d.rate t :=
    setIntegral_congr_ae measurableSet_Iic (by filter_upwards [GammaD.real_ae d h1] with t ht _ using ht)
  have hneg : ∀ y ≤ (0 : ℝ), (∫ t in Iic y, gammaPDFReal d.shape d.rate t) = 0 := by
    intro y hy
    rw [integral_Iic_eq_integral_Iio]
    refine setIntegral_eq_zero_of_forall_eq_zero fun t ht => ?_
    unfold gammaPDFReal
    exact if_neg (by have := mem_Iio.1 ht; linarith)
  rw [h4]
  unfold GammaD.cdf
  by_cases hx : x ≤ 0
  · rw [if_pos hx, hneg x hx]
  · rw [if_neg hx]
    have hx := not_le.1 hx
    have h5 := intervalIntegral.integral_Iic_sub_Iic (f := gammaPDFReal d.shape d.rate) (μ := volume) (a := 0) (b := x)
      (gamma_integrable h1.1 hr).integrableOn (gamma_integrable h1.1 hr).integrableOn
    rw [hneg 0 le_rfl, sub_zero] at h5
    rw [h5]
    unfold gammaP
    have h6 := intervalIntegral.integral_comp_mul_right (a := 0) (b := x)
      (fun t => t ^ (d.shape - 1) * Real.exp (-t)) hr.ne'
    rw [zero_mul, smul_eq_mul] at h6
    have h7 : (∫ t in (0 : ℝ)..x * d.rate, t ^ (d.shape - 1) * Real.exp (-t)) =
        d.rate * ∫ t in (0 : ℝ)..x, (t * d.rate) ^ (d.shape - 1) * Real.exp (-(t * d.rate)) := by
      rw [h6, ← mul_assoc, mul_inv_cancel₀ hr.ne', one_mul]
    rw [h7, ← intervalIntegral.integral_const_mul, ← intervalIntegral.integral_div]
    refine intervalIntegral.integral_congr fun t ht => ?_
    rw [uIcc_of_le hx.le] at ht
    unfold gammaPDFReal
    rw [if_pos ht.1, Real.mul_rpow ht.1 hr.le]
    rw [show d.rate ^ d.shape = d.rate ^ (d.shape - 1) * d.rate by
        rw [← Real.rpow_add_one hr.ne']; congr 1; ring, mul_comm t d.rate]
    ring

/-- C149 for the divergence, partial: between distributions of the same shape it is the expectation of the logarithm of
the quotient of the densities.  What is missing is the case of different shapes, where it is not. -/
theorem C149_divergence_partial (a r s : ℝ) (d o : GammaD) (hd : GammaD.make a r = some d) (ho : GammaD.make a s = some o) :
    d.divergence o = ∫ x, Real.log ((d.pdf x).toReal / (o.pdf x).toReal) * (d.pdf x).toReal := by
  obtain ⟨h1, h2, h3⟩ := GammaD.of_make hd
  obtain ⟨k1, k2, k3⟩ := GammaD.of_make ho
  have hr := h1.2.1
  have hs := k1.2.1
  have ha := h1.1
  have hne : ∀ᵐ x : ℝ, x ≠ 0 := by
    rw [ae_iff]
    simp
  have h4 : (fun x => Real.log ((d.pdf x).toReal / (o.pdf x).toReal) * (d.pdf x).toReal) =ᵐ[volume]
      fun x => (a * (Real.log r - Real.log s)) * gammaPDFReal a r x + (s - r) * (x * gammaPDFReal a r x) := by
    filter_upwards [GammaD.real_ae d h1, GammaD.real_ae o k1, hne] with x hx ho hx0
    rw [hx, ho, h2, h3, k2, k3]
    rw [h2] at ha
    rw [h3] at hr
    rw [k3] at hs
    by_cases hp : 0 < x
    · have e1 := GammaD.pdf_pos d h1 hp
      have e2 := GammaD.pdf_pos o k1 hp
      rw [h2, h3] at e1
      rw [k2, k3] at e2
      rw [← e1, ← e2, ← Real.exp_sub, Real.log_exp, h1.2.2, k1.2.2, h2, h3, k2, k3]
      ring
    · have hn : x < 0 := lt_of_le_of_ne (not_lt.1 hp) hx0
      have e1 : gammaPDFReal a r x = 0 := if_neg (not_le.2 hn)
      rw [e1]
      ring
  rw [integral_congr_ae h4]
  rw [h2] at ha
  rw [h3] at hr
  rw [k3] at hs
  rw [integral_add ((gamma_integrable ha hr).const_mul _) ((gamma_mean ha hr).1.const_mul _), integral_const_mul,
    integral_const_mul, gamma_one ha hr, (gamma_mean ha hr).2]
  unfold GammaD.divergence
  rw [h2, h3, k2, k3]
  field_simp
  ring

/-- C149 is false for the divergence between different shapes: the digamma function is taken at the shape of the wrong
distribution, and the result may be negative, which no divergence is. -/
theorem C149_divergence_counterexample :
    ∃ d o, GammaD.make 1 1 = some d ∧ GammaD.make 2 1 = some o ∧ d.divergence o < 0 := by
  have hm : ∀ a : ℝ, 0 < a → ∃ d, GammaD.make a 1 = some d := by
    intro a ha
    unfold GammaD.make GammaD.setShape GammaD.setRate
    rw [if_neg (not_le.2 ha), Option.bind_some, if_neg (by norm_num)]
    exact ⟨_, rfl⟩
  obtain ⟨d, hd⟩ := hm 1 one_pos
  obtain ⟨o, ho⟩ := hm 2 two_pos
  refine ⟨d, o, hd, ho, ?_⟩
  obtain ⟨h1, h2, h3⟩ := GammaD.of_make hd
  obtain ⟨k1, k2, k3⟩ := GammaD.of_make ho
  unfold GammaD.divergence
  rw [h2, h3, k2, k3, logGamma_one one_pos, logGamma_one two_pos, Real.Gamma_one, Real.Gamma_two]
  have h4 : digamma 2 = 1 - Real.eulerMascheroniConstant := by
    unfold digamma
    have := Real.deriv_Gamma_nat 1
    rw [show ((1 : ℕ) : ℝ) + 1 = 2 by norm_num] at this
    rw [this, Real.Gamma_two]
    norm_num [harmonic]
    ring
  rw [h4]
  have := Real.eulerMascheroniConstant_lt_two_thirds
  norm_num
  linarith

/-- C149: the chi square distribution of `k` degrees of freedom is refused unless `k` is positive, reports `k`, has the
mean `k`, the variance `2 k` and the density of the gamma distribution of shape `k / 2` and rate `1 / 2`; setting the
degrees gives the same object as making it with them. -/
theorem C149_chi_square (k : ℝ) :
    (chiSquare k = none ↔ k ≤ 0) ∧
    ∀ d, chiSquare k = some d → d.degrees = k ∧ d.mean = k ∧ d.variance = 2 * k ∧
      (∀ x, x ≠ 0 → d.pdf x = gammaPDF (k / 2) (1 / 2) x) ∧ ∀ l, d.setDegrees l = chiSquare l := by
  constructor
  · unfold chiSquare
    rw [(C149_density (1 / 2 * k) (1 / 2)).1]
    constructor
    · rintro (h | h) <;> linarith
    · intro h; left; linarith
  · intro d hd
    obtain ⟨h1, h2, h3⟩ := GammaD.of_make hd
    refine ⟨?_, ?_, ?_, ?_, ?_⟩
    · unfold GammaD.degrees; rw [h2]; ring
    · unfold GammaD.mean; rw [h2, h3]; ring
    · unfold GammaD.variance; rw [h2, h3]; ring
    · intro x hx
      rw [GammaD.pdf_eq d h1 (Or.inl hx), h2, h3, show 1 / 2 * k = k / 2 by ring]
    · intro l
      unfold GammaD.setDegrees chiSquare GammaD.make GammaD.setShape GammaD.setRate
      rw [mul_comm l]
      by_cases h : 1 / 2 * l ≤ 0
      · rw [if_pos h, if_pos h]; rfl
      · rw [if_neg h, if_neg h, Option.bind_some, if_neg (by norm_num)]
        unfold GammaD.compute
        rw [h3]

example : ∃ d o, GammaD.make 3 2 = some d ∧ chiSquare 5 = some o ∧ lastGamma (3, 2) [.setShape (-1), .setRate 4] = (3, 4) := by
  have h1 : GammaD.make 3 2 ≠ none := fun h => by rcases (C149_density 3 2).1.1 h with h | h <;> linarith
  have h2 : chiSquare 5 ≠ none := fun h => by have := (C149_chi_square 5).1.1 h; linarith
  obtain ⟨d, hd⟩ := Option.ne_none_iff_exists'.1 h1
  obtain ⟨o, ho⟩ := Option.ne_none_iff_exists'.1 h2
  refine ⟨d, o, hd, ho, ?_⟩
  norm_num [lastGamma]

end Kalibr.Stats
