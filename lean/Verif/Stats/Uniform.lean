import Verif.Stats.Model
import Mathlib.MeasureTheory.Integral.Pi
import Mathlib.Analysis.SpecialFunctions.Integrals.Basic

/-!
# The uniform distributions and their samples

Sources, in `/repo/aslam_incremental_calibration/aslam_incremental_calibration/include/aslam_incremental_calibration/statistics/`:
`UniformDistribution1v.tpp`, `UniformDistributionMv.tpp`, `Randomizer.tpp` (`sampleUniform`).

Simplifications: exact real arithmetic; an integer is a C++ `int` of 32 bits, an overflow is undefined behaviour; the
quotient `random() / RAND_MAX` is a number of `[0, 1]`, given as an argument.  Copying is not modelled.
-/

namespace Kalibr.Stats

open MeasureTheory

/-! ## Model -/

/-- `UniformDistribution<double>`, `UniformDistribution1v.h` 150-160. -/
structure Uni where
  lo : ℝ
  hi : ℝ
  area : ℝ

/-- `setSupport`, `UniformDistribution1v.tpp` 83-97, with `getSupportArea` of a real, 174-179; `none` when it throws,
which leaves the object as it is.  The constructor, 30-34, is one call of it. -/
noncomputable def Uni.setSupport (lo hi : ℝ) : Option Uni := if lo ≥ hi then none else some ⟨lo, hi, hi - lo⟩

/-- A call of a setter. -/
inductive UOp (X : Type) where
  | setSupport (lo hi : X)
  | setMin (lo : X)
  | setMax (hi : X)

/-- The object after a call whose exception, if any, is caught by the caller; `setMinSupport`, 99-103, and
`setMaxSupport`, 111-115. -/
noncomputable def Uni.run (d : Uni) : UOp ℝ → Uni
  | .setSupport lo hi => (Uni.setSupport lo hi).getD d
  | .setMin lo => (Uni.setSupport lo d.hi).getD d
  | .setMax hi => (Uni.setSupport d.lo hi).getD d

/-- `pdf`, lines 128-134. -/
noncomputable def Uni.pdf (d : Uni) (x : ℝ) : ℝ := if x ≥ d.lo ∧ x ≤ d.hi then 1 / d.area else 0

/-- `getMean`, lines 148-152. -/
noncomputable def Uni.mean (d : Uni) : ℝ := 1 / 2 * (d.hi - d.lo)

/-- `getMedian`, lines 154-158. -/
noncomputable def Uni.median (d : Uni) : ℝ := 1 / 2 * (d.hi - d.lo)

/-- `getVariance`, lines 167-171, of a real, 188-195. -/
noncomputable def Uni.variance (d : Uni) : ℝ := (d.hi - d.lo) * (d.hi - d.lo) / 12

/-- `Randomizer<double>::sampleUniform`, `Randomizer.tpp` 98-109, with `round` of a real, 238-242; `u` is
`random() / RAND_MAX`. -/
noncomputable def sampleUniform (u lo hi : ℝ) : Option ℝ := if lo ≥ hi then none else some (lo + u * (hi - lo))

/-- `getSample`, `UniformDistribution1v.tpp` 141-146. -/
noncomputable def Uni.sample (d : Uni) (u : ℝ) : Option ℝ := sampleUniform u d.lo d.hi

/-- `UniformDistribution<int>`. -/
structure UniI where
  lo : ℤ
  hi : ℤ
  area : ℤ
  deriving DecidableEq

/-- An `int` operation: its value, undefined behaviour when the value is not an `int`. -/
def int32 (z : ℤ) : Out ℤ := if -(2 : ℤ) ^ 31 ≤ z ∧ z < (2 : ℤ) ^ 31 then .ok z else .ub

/-- `setSupport` for `int`, `UniformDistribution1v.tpp` 83-97, with `getSupportArea` of an integer, 181-186. -/
def UniI.setSupport (lo hi : ℤ) : Out UniI :=
  if lo ≥ hi then .raise
  else (int32 (hi - lo)).bind fun a => (int32 (a + 1)).bind fun b => .ok ⟨lo, hi, b⟩

/-- `pmf`, lines 136-139. -/
noncomputable def UniI.pmf (d : UniI) (k : ℤ) : ℝ := if k ≥ d.lo ∧ k ≤ d.hi then 1 / (d.area : ℝ) else 0

/-- `getMean`, lines 148-152; the difference is an `int`, and does not overflow where the support was set. -/
noncomputable def UniI.mean (d : UniI) : ℝ := 1 / 2 * ((d.hi - d.lo : ℤ) : ℝ)

/-- `getVariance` of an integer, lines 197-204. -/
noncomputable def UniI.variance (d : UniI) : ℝ := (((d.hi - d.lo + 1 : ℤ) : ℝ) * ((d.hi - d.lo + 1 : ℤ) : ℝ) - 1) / 12

/-- The C function `round`: halves go away from zero. -/
noncomputable def cround (x : ℝ) : ℤ := if 0 ≤ x then ⌊x + 1 / 2⌋ else -⌊-x + 1 / 2⌋

/-- `getSample`, with `Randomizer<int>::sampleUniform`, `Randomizer.tpp` 98-109, and `round` of an integer, 244-248. -/
noncomputable def UniI.sample (d : UniI) (u : ℝ) : Option ℤ :=
  if d.lo ≥ d.hi then none else some (d.lo + cround (u * ((d.hi - d.lo : ℤ) : ℝ)))

variable {n : ℕ}

/-- `UniformDistribution<double, M>`, `UniformDistributionMv.h` 160-170. -/
structure UniV (n : ℕ) where
  lo : Fin n → ℝ
  hi : Fin n → ℝ
  area : ℝ

/-- `setSupport`, `UniformDistributionMv.tpp` 87-100, with `getSupportArea`, 184-194; `none` when it throws. -/
noncomputable def UniV.setSupport (lo hi : Fin n → ℝ) : Option (UniV n) :=
  if ∃ i, lo i ≥ hi i then none else some ⟨lo, hi, ∏ i, (hi i - lo i)⟩

/-- The object after a call whose exception, if any, is caught; lines 102-118. -/
noncomputable def UniV.run (d : UniV n) : UOp (Fin n → ℝ) → UniV n
  | .setSupport lo hi => (UniV.setSupport lo hi).getD d
  | .setMin lo => (UniV.setSupport lo d.hi).getD d
  | .setMax hi => (UniV.setSupport d.lo hi).getD d

/-- `pdf`, lines 131-138. -/
noncomputable def UniV.pdf (d : UniV n) (x : Fin n → ℝ) : ℝ :=
  if (∀ i, x i ≤ d.hi i) ∧ ∀ i, x i ≥ d.lo i then 1 / d.area else 0

/-- `getMean`, lines 155-159. -/
noncomputable def UniV.mean (d : UniV n) : Fin n → ℝ := fun i => 1 / 2 * (d.hi i - d.lo i)

/-- `getCovariance`, lines 174-178 and 208-220. -/
noncomputable def UniV.covariance (d : UniV n) : Matrix (Fin n) (Fin n) ℝ :=
  ((∏ i, (d.hi i - d.lo i)) * (∏ i, (d.hi i - d.lo i)) / 12) • (1 : Matrix (Fin n) (Fin n) ℝ)

/-- `getSample`, lines 145-153; `u i` is the quotient of the call for the component `i`. -/
noncomputable def UniV.sample (d : UniV n) (u : Fin n → ℝ) : Fin n → Option ℝ := fun i => sampleUniform (u i) (d.lo i) (d.hi i)

/-! ## What is expected -/

/-- The support after a sequence of calls of the setters: the last one given whose lower end is below its upper end. -/
noncomputable def lastSupport : ℝ × ℝ → List (UOp ℝ) → ℝ × ℝ
  | s, [] => s
  | s, .setSupport lo hi :: os => lastSupport (if lo < hi then (lo, hi) else s) os
  | s, .setMin lo :: os => lastSupport (if lo < s.2 then (lo, s.2) else s) os
  | s, .setMax hi :: os => lastSupport (if s.1 < hi then (s.1, hi) else s) os

/-- The same for vectors: every lower end is below its upper end. -/
noncomputable def lastBox : (Fin n → ℝ) × (Fin n → ℝ) → List (UOp (Fin n → ℝ)) → (Fin n → ℝ) × (Fin n → ℝ)
  | s, [] => s
  | s, .setSupport lo hi :: os => open Classical in lastBox (if ∀ i, lo i < hi i then (lo, hi) else s) os
  | s, .setMin lo :: os => open Classical in lastBox (if ∀ i, lo i < s.2 i then (lo, s.2) else s) os
  | s, .setMax hi :: os => open Classical in lastBox (if ∀ i, s.1 i < hi i then (s.1, hi) else s) os

/-- The expectation of a quantity of a number with density `f`. -/
noncomputable def expect (f g : ℝ → ℝ) : ℝ := ∫ x, g x * f x

/-- The expectation of a quantity of a vector with density `f`. -/
noncomputable def expectV (f g : (Fin n → ℝ) → ℝ) : ℝ := ∫ x, g x * f x

/-! ## One number -/

theorem Uni.of_set {lo hi : ℝ} {d : Uni} (h : Uni.setSupport lo hi = some d) : lo < hi ∧ d = ⟨lo, hi, hi - lo⟩ := by
  unfold Uni.setSupport at h
  by_cases h1 : lo ≥ hi
  · rw [if_pos h1] at h; cases h
  · rw [if_neg h1] at h
    exact ⟨not_le.1 h1, (Option.some.inj h).symm⟩

theorem Uni.getD_set (lo hi : ℝ) (d : Uni) :
    (Uni.setSupport lo hi).getD d = if lo < hi then ⟨lo, hi, hi - lo⟩ else d := by
  unfold Uni.setSupport
  by_cases h : lo < hi
  · rw [if_neg (not_le.2 h), if_pos h]; rfl
  · rw [if_pos (not_lt.1 h), if_neg h]; rfl

/-- An object of the class is its two ends and the difference of them. -/
def Uni.Is (d : Uni) : Prop := d.lo < d.hi ∧ d.area = d.hi - d.lo

theorem Uni.history (d : Uni) (hd : d.Is) (os : List (UOp ℝ)) :
    (os.foldl Uni.run d).Is ∧ ((os.foldl Uni.run d).lo, (os.foldl Uni.run d).hi) = lastSupport (d.lo, d.hi) os := by
  induction os generalizing d with
  | nil => exact ⟨hd, rfl⟩
  | cons o os ih =>
    rw [List.foldl_cons]
    cases o with
    | setSupport lo hi =>
      rw [show d.run (.setSupport lo hi) = (Uni.setSupport lo hi).getD d from rfl, Uni.getD_set, lastSupport]
      by_cases h : lo < hi
      · rw [if_pos h, if_pos h]; exact ih _ ⟨h, rfl⟩
      · rw [if_neg h, if_neg h]; exact ih _ hd
    | setMin lo =>
      rw [show d.run (.setMin lo) = (Uni.setSupport lo d.hi).getD d from rfl, Uni.getD_set, lastSupport]
      by_cases h : lo < d.hi
      · rw [if_pos h, if_pos h]; exact ih _ ⟨h, rfl⟩
      · rw [if_neg h, if_neg h]; exact ih _ hd
    | setMax hi =>
      rw [show d.run (.setMax hi) = (Uni.setSupport d.lo hi).getD d from rfl, Uni.getD_set, lastSupport]
      by_cases h : d.lo < hi
      · rw [if_pos h, if_pos h]; exact ih _ ⟨h, rfl⟩
      · rw [if_neg h, if_neg h]; exact ih _ hd

theorem Uni.expect_eq (d : Uni) (hd : d.Is) (g : ℝ → ℝ) :
    expect d.pdf g = (∫ x in d.lo..d.hi, g x) / (d.hi - d.lo) := by
  unfold expect
  have h1 : (fun x => g x * d.pdf x) = (Set.Icc d.lo d.hi).indicator fun x => g x * (1 / (d.hi - d.lo)) := by
    funext x
    unfold Uni.pdf
    by_cases h : x ≥ d.lo ∧ x ≤ d.hi
    · rw [if_pos h, Set.indicator_of_mem (show x ∈ Set.Icc d.lo d.hi from h), hd.2]
    · rw [if_neg h, Set.indicator_of_notMem (show x ∉ Set.Icc d.lo d.hi from h), mul_zero]
  rw [h1, integral_indicator measurableSet_Icc, integral_Icc_eq_integral_Ioc, ← intervalIntegral.integral_of_le hd.1.le,
    intervalIntegral.integral_mul_const]
  ring

theorem Uni.expect_one (d : Uni) (hd : d.Is) : expect d.pdf (fun _ => 1) = 1 := by
  rw [Uni.expect_eq d hd, intervalIntegral.integral_const, smul_eq_mul, mul_one, div_self (sub_pos.2 hd.1).ne']

theorem Uni.expect_id (d : Uni) (hd : d.Is) : expect d.pdf (fun x => x) = (d.lo + d.hi) / 2 := by
  have := (sub_pos.2 hd.1).ne'
  rw [Uni.expect_eq d hd, integral_id]
  field_simp
  ring

theorem Uni.expect_sq (d : Uni) (hd : d.Is) : expect d.pdf (fun x => (x - (d.lo + d.hi) / 2) ^ 2) = (d.hi - d.lo) ^ 2 / 12 := by
  have := (sub_pos.2 hd.1).ne'
  rw [Uni.expect_eq d hd, intervalIntegral.integral_comp_sub_right (fun x => x ^ 2), integral_pow]
  field_simp
  ring

/-- C148: a support is refused exactly when its lower end is not below its upper end; after the constructor and any
calls of the setters, the distribution is the one of the last support that was accepted: its density is the same number
everywhere in the support and zero elsewhere, its integral is one, and the variance it reports is the variance of it. -/
theorem C148_density (lo hi : ℝ) :
    (Uni.setSupport lo hi = none ↔ hi ≤ lo) ∧
    ∀ d, Uni.setSupport lo hi = some d → ∀ os e, e = os.foldl Uni.run d → ∀ a b, (a, b) = lastSupport (lo, hi) os →
      a < b ∧ (e.lo, e.hi) = (a, b) ∧
      (∀ x, e.pdf x = if x ∈ Set.Icc a b then 1 / (b - a) else 0) ∧
      expect e.pdf (fun _ => 1) = 1 ∧
      e.variance = expect e.pdf (fun x => (x - expect e.pdf fun y => y) ^ 2) := by
  constructor
  · unfold Uni.setSupport
    by_cases h : lo ≥ hi
    · rw [if_pos h]; exact ⟨fun _ => h, fun _ => rfl⟩
    · rw [if_neg h]; exact ⟨fun h2 => (by cases h2), fun h1 => absurd h1 h⟩
  · intro d hd os e he a b hab
    obtain ⟨h1, h2⟩ := Uni.of_set hd
    obtain ⟨h3, h4⟩ := Uni.history d (by rw [h2]; exact ⟨h1, rfl⟩) os
    rw [← he] at h3 h4
    have h5 : (e.lo, e.hi) = (a, b) := by rw [h4, hab, h2]
    obtain ⟨h6, h7⟩ := Prod.mk.inj h5
    refine ⟨h6 ▸ h7 ▸ h3.1, h5, ?_, Uni.expect_one e h3, ?_⟩
    · intro x
      unfold Uni.pdf
      rw [h3.2, h6, h7]
      rfl
    · rw [Uni.expect_id e h3, Uni.expect_sq e h3]
      unfold Uni.variance
      ring

/-- C148 is false for the mean and the median: what `getMean` and `getMedian` return is the mean, and has half of the
probability below it, only for a support that begins at zero. -/
theorem C148_mean_counterexample (lo hi : ℝ) (d : Uni) (h : Uni.setSupport lo hi = some d) :
    (d.mean = expect d.pdf (fun x => x) ↔ lo = 0) ∧
    (lo ≤ d.median ∧ d.median ≤ hi ∧ (∫ x in lo..d.median, d.pdf x) = 1 / 2 ↔ lo = 0) ∧
    (∃ e, Uni.setSupport 10 12 = some e ∧ e.mean = 1 ∧ e.median = 1 ∧ expect e.pdf (fun x => x) = 11 ∧ e.pdf e.mean = 0) := by
  obtain ⟨h1, rfl⟩ := Uni.of_set h
  have hp : 0 < hi - lo := sub_pos.2 h1
  refine ⟨?_, ?_, ?_⟩
  · rw [Uni.expect_id _ ⟨h1, rfl⟩]
    unfold Uni.mean
    constructor <;> intro h2 <;> simp only at * <;> linarith
  · have h3 : ∀ m, lo ≤ m → m ≤ hi → (∫ x in lo..m, Uni.pdf ⟨lo, hi, hi - lo⟩ x) = (m - lo) / (hi - lo) := by
      intro m hm1 hm2
      rw [intervalIntegral.integral_congr (g := fun _ => 1 / (hi - lo))]
      · rw [intervalIntegral.integral_const, smul_eq_mul]; ring
      · intro x hx
        rw [Set.uIcc_of_le hm1] at hx
        unfold Uni.pdf
        exact if_pos ⟨hx.1, hx.2.trans hm2⟩
    unfold Uni.median
    simp only
    constructor
    · rintro ⟨h4, h5, h6⟩
      rw [h3 _ h4 h5] at h6
      field_simp at h6
      linarith
    · rintro rfl
      refine ⟨by linarith, by linarith, ?_⟩
      rw [h3 _ (by linarith) (by linarith)]
      field_simp
      ring
  · refine ⟨⟨10, 12, 12 - 10⟩, ?_, ?_, ?_, ?_, ?_⟩
    · unfold Uni.setSupport; rw [if_neg (by norm_num)]
    · unfold Uni.mean; norm_num
    · unfold Uni.median; norm_num
    · rw [Uni.expect_id _ ⟨by norm_num, rfl⟩]; norm_num
    · unfold Uni.pdf Uni.mean; norm_num

/-- C148: a sample lies in the support, every number of the support is a sample, and the samples up to a number `x` of
the support are the part `(x - lo) / (hi - lo)` of all. -/
theorem C148_samples (lo hi : ℝ) (d : Uni) (h : Uni.setSupport lo hi = some d) :
    (∀ u ∈ Set.Icc (0 : ℝ) 1, ∃ x ∈ Set.Icc lo hi, d.sample u = some x) ∧
    (∀ x ∈ Set.Icc lo hi, ∃ u ∈ Set.Icc (0 : ℝ) 1, d.sample u = some x) ∧
    ∀ x ∈ Set.Icc lo hi, volume {u : ℝ | u ∈ Set.Icc 0 1 ∧ ∃ y ≤ x, d.sample u = some y} = ENNReal.ofReal (∫ t in lo..x, d.pdf t) := by
  obtain ⟨h1, rfl⟩ := Uni.of_set h
  have hp : 0 < hi - lo := sub_pos.2 h1
  have hs : ∀ u, Uni.sample ⟨lo, hi, hi - lo⟩ u = some (lo + u * (hi - lo)) := by
    intro u
    unfold Uni.sample sampleUniform
    exact if_neg (not_le.2 h1)
  refine ⟨?_, ?_, ?_⟩
  · intro u hu
    exact ⟨_, ⟨by nlinarith [hu.1], by nlinarith [hu.2]⟩, hs u⟩
  · intro x hx
    refine ⟨(x - lo) / (hi - lo), ⟨div_nonneg (sub_nonneg.2 hx.1) hp.le, (div_le_one hp).2 (by linarith [hx.2])⟩, ?_⟩
    rw [hs, div_mul_cancel₀ _ hp.ne']
    congr 1
    ring
  · intro x hx
    have h2 : {u : ℝ | u ∈ Set.Icc 0 1 ∧ ∃ y ≤ x, Uni.sample ⟨lo, hi, hi - lo⟩ u = some y} = Set.Icc 0 ((x - lo) / (hi - lo)) := by
      ext u
      simp only [hs, Set.mem_ofPred_eq, Set.mem_Icc, Option.some.injEq]
      have h3 : (x - lo) / (hi - lo) ≤ 1 := (div_le_one hp).2 (by linarith [hx.2])
      constructor
      · rintro ⟨⟨h4, h5⟩, y, hy, rfl⟩
        exact ⟨h4, (le_div_iff₀ hp).2 (by linarith)⟩
      · rintro ⟨h4, h5⟩
        exact ⟨⟨h4, h5.trans h3⟩, _, by have := (le_div_iff₀ hp).1 h5; linarith, rfl⟩
    rw [h2, Real.volume_Icc, intervalIntegral.integral_congr (g := fun _ => 1 / (hi - lo))]
    · rw [intervalIntegral.integral_const, smul_eq_mul]
      congr 1
      ring
    · intro t ht
      rw [Set.uIcc_of_le hx.1] at ht
      unfold Uni.pdf
      exact if_pos ⟨ht.1, ht.2.trans hx.2⟩

example : ∃ d, Uni.setSupport (-1) 3 = some d ∧ (lastSupport (-1, 3) [.setMin 5, .setMax 2, .setMin 0]) = (0, 2) := by
  refine ⟨⟨-1, 3, 3 - -1⟩, ?_, ?_⟩
  · unfold Uni.setSupport; rw [if_neg (by norm_num)]
  · norm_num [lastSupport]

/-! ## Integers -/

theorem UniI.of_set {lo hi : ℤ} {d : UniI} (h : UniI.setSupport lo hi = .ok d) :
    lo < hi ∧ hi - lo + 1 < 2 ^ 31 ∧ d = ⟨lo, hi, hi - lo + 1⟩ := by
  unfold UniI.setSupport int32 at h
  by_cases h1 : lo ≥ hi
  · rw [if_pos h1] at h; cases h
  · rw [if_neg h1] at h
    by_cases h2 : -(2 : ℤ) ^ 31 ≤ hi - lo ∧ hi - lo < (2 : ℤ) ^ 31
    · rw [if_pos h2, Out.bind] at h
      by_cases h3 : -(2 : ℤ) ^ 31 ≤ hi - lo + 1 ∧ hi - lo + 1 < (2 : ℤ) ^ 31
      · rw [if_pos h3, Out.bind] at h
        exact ⟨not_le.1 h1, h3.2, (Out.ok.inj h).symm⟩
      · rw [if_neg h3, Out.bind] at h; cases h
    · rw [if_neg h2, Out.bind] at h; cases h

theorem sum_Icc (lo hi : ℤ) (N : ℕ) (h : hi - lo + 1 = N) (f : ℤ → ℝ) :
    ∑ k ∈ Finset.Icc lo hi, f k = ∑ j ∈ Finset.range N, f (j + lo) := by
  refine (Finset.sum_bij (fun (j : ℕ) _ => (j : ℤ) + lo) ?_ ?_ ?_ ?_).symm
  · intro j hj
    have := Finset.mem_range.1 hj
    exact Finset.mem_Icc.2 ⟨by omega, by omega⟩
  · intro j _ k _ h
    omega
  · intro k hk
    have := Finset.mem_Icc.1 hk
    exact ⟨(k - lo).toNat, Finset.mem_range.2 (by omega), by omega⟩
  · intro j _
    rfl

theorem sum_lin (N : ℕ) (c : ℝ) : ∑ j ∈ Finset.range N, ((j : ℝ) + c) = N * (N - 1) / 2 + N * c := by
  induction N with
  | zero => simp
  | succ N ih => rw [Finset.sum_range_succ, ih]; push_cast; ring

theorem sum_quad (N : ℕ) (c : ℝ) :
    ∑ j ∈ Finset.range N, ((j : ℝ) + c) ^ 2 = N * (N - 1) * (2 * N - 1) / 6 + c * N * (N - 1) + N * c ^ 2 := by
  induction N with
  | zero => simp
  | succ N ih => rw [Finset.sum_range_succ, ih]; push_cast; ring

/-- The expectation of a quantity of an integer of the support. -/
noncomputable def expectI (lo hi : ℤ) (f : ℤ → ℝ) (g : ℝ → ℝ) : ℝ := ∑ k ∈ Finset.Icc lo hi, g k * f k

theorem UniI.expect_eq {lo hi : ℤ} {d : UniI} (h : UniI.setSupport lo hi = .ok d) (g : ℝ → ℝ) :
    ∃ N : ℕ, 0 < N ∧ (N : ℤ) = hi - lo + 1 ∧ expectI lo hi d.pmf g = (∑ j ∈ Finset.range N, g (j + lo)) / N := by
  obtain ⟨h1, h2, rfl⟩ := UniI.of_set h
  obtain ⟨N, hN⟩ : ∃ N : ℕ, hi - lo + 1 = N := ⟨(hi - lo + 1).toNat, by omega⟩
  refine ⟨N, by omega, hN.symm, ?_⟩
  unfold expectI
  rw [Finset.sum_congr rfl (g := fun k : ℤ => g k * (1 / N)), sum_Icc lo hi N hN, Finset.sum_div]
  · refine Finset.sum_congr rfl fun j _ => ?_
    push_cast
    ring
  · intro k hk
    unfold UniI.pmf
    have hk := Finset.mem_Icc.1 hk
    rw [if_pos ⟨hk.1, hk.2⟩, hN]
    push_cast
    rfl

/-- C148: for integers a support that is not refused gives a distribution whose values in the support sum to one, which
is zero elsewhere, and whose variance is the one reported. -/
theorem C148_integers (lo hi : ℤ) :
    (UniI.setSupport lo hi = .raise ↔ hi ≤ lo) ∧
    (lo < hi → hi - lo + 1 < 2 ^ 31 → ∃ d, UniI.setSupport lo hi = .ok d) ∧
    ∀ d, UniI.setSupport lo hi = .ok d →
      (∀ k, k < lo ∨ hi < k → d.pmf k = 0) ∧
      (∀ k ∈ Set.Icc lo hi, ∀ l ∈ Set.Icc lo hi, d.pmf k = d.pmf l) ∧
      expectI lo hi d.pmf (fun _ => 1) = 1 ∧
      d.variance = expectI lo hi d.pmf (fun x => (x - expectI lo hi d.pmf fun y => y) ^ 2) := by
  refine ⟨?_, ?_, ?_⟩
  · unfold UniI.setSupport int32
    by_cases h : lo ≥ hi
    · rw [if_pos h]; exact ⟨fun _ => h, fun _ => rfl⟩
    · rw [if_neg h]
      refine ⟨fun h2 => ?_, fun h1 => absurd h1 h⟩
      split_ifs at h2 <;> simp at h2
      split_ifs at h2
  · intro h1 h2
    refine ⟨⟨lo, hi, hi - lo + 1⟩, ?_⟩
    unfold UniI.setSupport int32
    rw [if_neg (not_le.2 h1), if_pos ⟨by omega, by omega⟩, Out.bind, if_pos ⟨by omega, by omega⟩, Out.bind]
  · intro d h
    obtain ⟨h1, h2, h3⟩ := UniI.of_set h
    refine ⟨?_, ?_, ?_, ?_⟩
    · intro k hk
      rw [h3]
      exact if_neg (by simp only; omega)
    · intro k hk l hl
      rw [h3]
      unfold UniI.pmf
      rw [if_pos ⟨hk.1, hk.2⟩, if_pos ⟨hl.1, hl.2⟩]
    · obtain ⟨N, h4, h5, h6⟩ := UniI.expect_eq h (fun _ => 1)
      have : (N : ℝ) ≠ 0 := by positivity
      rw [h6, Finset.sum_const, Finset.card_range, nsmul_eq_mul, mul_one, div_self this]
    · obtain ⟨N, h4, h5, h6⟩ := UniI.expect_eq h (fun y => y)
      have hN : (N : ℝ) ≠ 0 := by positivity
      rw [h6, sum_lin]
      obtain ⟨M, h7, h8, h9⟩ := UniI.expect_eq h (fun x => (x - (N * (N - 1) / 2 + N * (lo : ℝ)) / N) ^ 2)
      obtain rfl : M = N := by omega
      rw [h9, Finset.sum_congr rfl (g := fun j : ℕ => ((j : ℝ) + -((M - 1 : ℝ) / 2)) ^ 2), sum_quad, h3]
      · unfold UniI.variance
        simp only
        rw [← h5]
        push_cast
        field_simp
        ring
      · intro j _
        congr 1
        field_simp
        ring

/-- C148 is false for the mean of integers too, and a support as wide as the type itself is undefined behaviour. -/
theorem C148_integer_counterexample :
    (∀ lo hi d, UniI.setSupport lo hi = .ok d → (d.mean = expectI lo hi d.pmf (fun x => x) ↔ lo = 0)) ∧
    (∃ d, UniI.setSupport 10 12 = .ok d ∧ d.mean ≠ expectI 10 12 d.pmf (fun x => x)) ∧
    UniI.setSupport (-1) (2 ^ 31 - 2) = .ub := by
  have h0 : ∀ lo hi d, UniI.setSupport lo hi = .ok d → (d.mean = expectI lo hi d.pmf (fun x => x) ↔ lo = 0) := by
    intro lo hi d h
    obtain ⟨h1, h2, h3⟩ := UniI.of_set h
    obtain ⟨N, h4, h5, h6⟩ := UniI.expect_eq h (fun y => y)
    have hN : (N : ℝ) ≠ 0 := by positivity
    have h7 : ((hi - lo : ℤ) : ℝ) = N - 1 := by
      have : hi - lo = (N : ℤ) - 1 := by omega
      rw [this]; push_cast; ring
    rw [h6, sum_lin, h3]
    unfold UniI.mean
    simp only
    rw [h7, show (N * (N - 1) / 2 + N * (lo : ℝ)) / N = 1 / 2 * (N - 1) + lo by field_simp]
    constructor
    · intro h8
      have : (lo : ℝ) = 0 := by linarith
      exact_mod_cast this
    · rintro rfl
      simp
  refine ⟨h0, ?_, ?_⟩
  · obtain ⟨d, hd⟩ := (C148_integers 10 12).2.1 (by norm_num) (by norm_num)
    refine ⟨d, hd, fun h => ?_⟩
    have := (h0 10 12 d hd).1 h
    omega
  · decide

/-- C148: an integer sample lies in the support, and every integer of the support is a sample. -/
theorem C148_integer_samples (lo hi : ℤ) (d : UniI) (h : UniI.setSupport lo hi = .ok d) :
    (∀ u ∈ Set.Icc (0 : ℝ) 1, ∃ k ∈ Set.Icc lo hi, d.sample u = some k) ∧
    ∀ k ∈ Set.Icc lo hi, ∃ u ∈ Set.Icc (0 : ℝ) 1, d.sample u = some k := by
  obtain ⟨h1, h2, rfl⟩ := UniI.of_set h
  have hp : (0 : ℝ) < ((hi - lo : ℤ) : ℝ) := by exact_mod_cast (by omega : (0 : ℤ) < hi - lo)
  have hs : ∀ u, UniI.sample ⟨lo, hi, hi - lo + 1⟩ u = some (lo + cround (u * ((hi - lo : ℤ) : ℝ))) := by
    intro u
    unfold UniI.sample
    exact if_neg (not_le.2 h1)
  constructor
  · intro u hu
    refine ⟨_, ?_, hs u⟩
    have h3 : 0 ≤ u * ((hi - lo : ℤ) : ℝ) := mul_nonneg hu.1 hp.le
    have h4 : u * ((hi - lo : ℤ) : ℝ) ≤ ((hi - lo : ℤ) : ℝ) := by nlinarith [hu.2]
    unfold cround
    rw [if_pos h3]
    have h5 : 0 ≤ ⌊u * ((hi - lo : ℤ) : ℝ) + 1 / 2⌋ := Int.floor_nonneg.2 (by linarith)
    have h6 : ⌊u * ((hi - lo : ℤ) : ℝ) + 1 / 2⌋ < hi - lo + 1 := Int.floor_lt.2 (by push_cast at *; linarith)
    exact ⟨by omega, by omega⟩
  · intro k hk
    have h3 : (0 : ℝ) ≤ ((k - lo : ℤ) : ℝ) := by exact_mod_cast (by have := hk.1; omega : (0 : ℤ) ≤ k - lo)
    have h4 : ((k - lo : ℤ) : ℝ) ≤ ((hi - lo : ℤ) : ℝ) := by exact_mod_cast (by have := hk.2; omega : k - lo ≤ hi - lo)
    refine ⟨((k - lo : ℤ) : ℝ) / ((hi - lo : ℤ) : ℝ), ⟨div_nonneg h3 hp.le, (div_le_one hp).2 h4⟩, ?_⟩
    rw [hs, div_mul_cancel₀ _ hp.ne']
    unfold cround
    rw [if_pos h3, show ⌊((k - lo : ℤ) : ℝ) + 1 / 2⌋ = k - lo from Int.floor_eq_iff.2 ⟨by linarith, by linarith⟩]
    congr 1
    omega

/-- C148 is false for the frequency of integer samples: the ends of the support come up half as often as the integers
between them.  With the support 0 to 2 a quarter of the samples is 0, while `pmf` gives a third. -/
theorem C148_integer_samples_counterexample :
    ∃ d, UniI.setSupport 0 2 = .ok d ∧ d.pmf 0 = 1 / 3 ∧
      volume {u : ℝ | u ∈ Set.Icc 0 1 ∧ d.sample u = some 0} = ENNReal.ofReal (1 / 4) ∧
      volume {u : ℝ | u ∈ Set.Icc 0 1 ∧ d.sample u = some 1} = ENNReal.ofReal (1 / 2) := by
  refine ⟨⟨0, 2, 3⟩, by decide, ?_, ?_, ?_⟩
  · unfold UniI.pmf; norm_num
  · have h1 : {u : ℝ | u ∈ Set.Icc 0 1 ∧ UniI.sample ⟨0, 2, 3⟩ u = some 0} = Set.Ico 0 (1 / 4) := by
      ext u
      simp only [Set.mem_ofPred_eq, Set.mem_Icc, Set.mem_Ico, UniI.sample, cround]
      constructor
      · rintro ⟨⟨h1, h2⟩, h3⟩
        rw [if_neg (by norm_num), if_pos (by push_cast; linarith)] at h3
        have h4 := Option.some.inj h3
        rw [zero_add, Int.floor_eq_iff] at h4
        push_cast at h4
        exact ⟨h1, by linarith [h4.2]⟩
      · rintro ⟨h1, h2⟩
        refine ⟨⟨h1, by linarith⟩, ?_⟩
        rw [if_neg (by norm_num), if_pos (by push_cast; linarith)]
        congr 1
        rw [zero_add, Int.floor_eq_iff]
        push_cast
        constructor <;> linarith
    rw [h1, Real.volume_Ico]
    norm_num
  · have h1 : {u : ℝ | u ∈ Set.Icc 0 1 ∧ UniI.sample ⟨0, 2, 3⟩ u = some 1} = Set.Ico (1 / 4) (3 / 4) := by
      ext u
      simp only [Set.mem_ofPred_eq, Set.mem_Icc, Set.mem_Ico, UniI.sample, cround]
      constructor
      · rintro ⟨⟨h1, h2⟩, h3⟩
        rw [if_neg (by norm_num), if_pos (by push_cast; linarith)] at h3
        have h4 := Option.some.inj h3
        rw [zero_add, Int.floor_eq_iff] at h4
        push_cast at h4
        exact ⟨by linarith [h4.1], by linarith [h4.2]⟩
      · rintro ⟨h1, h2⟩
        refine ⟨⟨by linarith, by linarith⟩, ?_⟩
        rw [if_neg (by norm_num), if_pos (by push_cast; linarith)]
        congr 1
        rw [zero_add, Int.floor_eq_iff]
        push_cast
        constructor <;> linarith
    rw [h1, Real.volume_Ico]
    norm_num

/-! ## Vectors -/

/-- An object of the class is its two corners and the product of the sides. -/
def UniV.Is (d : UniV n) : Prop := (∀ i, d.lo i < d.hi i) ∧ d.area = ∏ i, (d.hi i - d.lo i)

theorem UniV.getD_set (lo hi : Fin n → ℝ) (d : UniV n) :
    (UniV.setSupport lo hi).getD d = open Classical in if ∀ i, lo i < hi i then ⟨lo, hi, ∏ i, (hi i - lo i)⟩ else d := by
  unfold UniV.setSupport
  by_cases h : ∀ i, lo i < hi i
  · rw [if_neg (fun ⟨i, hi⟩ => absurd (h i) (not_lt.2 hi)), if_pos h]; rfl
  · rw [if_neg h, if_pos (by push Not at h; exact h)]; rfl

theorem UniV.of_set {lo hi : Fin n → ℝ} {d : UniV n} (h : UniV.setSupport lo hi = some d) :
    (∀ i, lo i < hi i) ∧ d = ⟨lo, hi, ∏ i, (hi i - lo i)⟩ := by
  unfold UniV.setSupport at h
  by_cases h1 : ∃ i, lo i ≥ hi i
  · rw [if_pos h1] at h; cases h
  · rw [if_neg h1] at h
    push Not at h1
    exact ⟨h1, (Option.some.inj h).symm⟩

theorem UniV.history (d : UniV n) (hd : d.Is) (os : List (UOp (Fin n → ℝ))) :
    (os.foldl UniV.run d).Is ∧ ((os.foldl UniV.run d).lo, (os.foldl UniV.run d).hi) = lastBox (d.lo, d.hi) os := by
  induction os generalizing d with
  | nil => exact ⟨hd, rfl⟩
  | cons o os ih =>
    rw [List.foldl_cons]
    cases o with
    | setSupport lo hi =>
      rw [show d.run (.setSupport lo hi) = (UniV.setSupport lo hi).getD d from rfl, UniV.getD_set, lastBox]
      by_cases h : ∀ i, lo i < hi i
      · rw [if_pos h, if_pos h]; exact ih _ ⟨h, rfl⟩
      · rw [if_neg h, if_neg h]; exact ih _ hd
    | setMin lo =>
      rw [show d.run (.setMin lo) = (UniV.setSupport lo d.hi).getD d from rfl, UniV.getD_set, lastBox]
      by_cases h : ∀ i, lo i < d.hi i
      · rw [if_pos h, if_pos h]; exact ih _ ⟨h, rfl⟩
      · rw [if_neg h, if_neg h]; exact ih _ hd
    | setMax hi =>
      rw [show d.run (.setMax hi) = (UniV.setSupport d.lo hi).getD d from rfl, UniV.getD_set, lastBox]
      by_cases h : ∀ i, d.lo i < hi i
      · rw [if_pos h, if_pos h]; exact ih _ ⟨h, rfl⟩
      · rw [if_neg h, if_neg h]; exact ih _ hd

/-- The distribution of one component. -/
def UniV.axis (d : UniV n) (i : Fin n) : Uni := ⟨d.lo i, d.hi i, d.hi i - d.lo i⟩

theorem UniV.pdf_prod (d : UniV n) (hd : d.Is) (x : Fin n → ℝ) : d.pdf x = ∏ i, (d.axis i).pdf (x i) := by
  unfold UniV.pdf
  by_cases h : (∀ i, x i ≤ d.hi i) ∧ ∀ i, x i ≥ d.lo i
  · have h1 : ∀ i, (d.axis i).pdf (x i) = (d.hi i - d.lo i)⁻¹ := by
      intro i
      rw [← one_div]
      exact if_pos ⟨h.2 i, h.1 i⟩
    rw [if_pos h, hd.2, one_div, ← Finset.prod_inv_distrib]
    exact Finset.prod_congr rfl fun i _ => (h1 i).symm
  · rw [if_neg h]
    symm
    have h1 : ∃ i, ¬ (x i ≥ d.lo i ∧ x i ≤ d.hi i) := by
      by_contra h2
      push Not at h2
      exact h ⟨fun i => (h2 i).2, fun i => (h2 i).1⟩
    obtain ⟨i, hi⟩ := h1
    exact Finset.prod_eq_zero (Finset.mem_univ i) (if_neg hi)

theorem UniV.axis_is (d : UniV n) (hd : d.Is) (i : Fin n) : (d.axis i).Is := ⟨hd.1 i, rfl⟩

theorem UniV.expect_prod (d : UniV n) (hd : d.Is) (g : Fin n → ℝ → ℝ) :
    expectV d.pdf (fun x => ∏ i, g i (x i)) = ∏ i, expect (d.axis i).pdf (g i) := by
  unfold expectV expect
  rw [← integral_fintype_prod_volume_eq_prod (f := fun i x => g i x * (d.axis i).pdf x)]
  congr 1
  funext x
  rw [UniV.pdf_prod d hd, Finset.prod_mul_distrib]

theorem UniV.expect_one (d : UniV n) (hd : d.Is) : expectV d.pdf (fun _ => 1) = 1 := by
  have h := UniV.expect_prod d hd (fun _ _ => 1)
  rw [Finset.prod_eq_one (fun i _ => Uni.expect_one _ (d.axis_is hd i))] at h
  simpa using h

theorem UniV.expect_axis (d : UniV n) (hd : d.Is) (i : Fin n) (g : ℝ → ℝ) :
    expectV d.pdf (fun x => g (x i)) = expect (d.axis i).pdf g := by
  have h := UniV.expect_prod d hd (fun j => if j = i then g else fun _ => 1)
  rw [Finset.prod_eq_single i] at h
  · rw [if_pos rfl] at h
    rw [← h]
    congr 1
    funext x
    rw [Finset.prod_eq_single i]
    · rw [if_pos rfl]
    · intro j _ hj; rw [if_neg hj]
    · intro h; exact absurd (Finset.mem_univ i) h
  · intro j _ hj; rw [if_neg hj]; exact Uni.expect_one _ (d.axis_is hd j)
  · intro h; exact absurd (Finset.mem_univ i) h

theorem UniV.expect_axes (d : UniV n) (hd : d.Is) (i j : Fin n) (hij : i ≠ j) (g h : ℝ → ℝ) :
    expectV d.pdf (fun x => g (x i) * h (x j)) = expect (d.axis i).pdf g * expect (d.axis j).pdf h := by
  have h1 := UniV.expect_prod d hd (fun k => if k = i then g else if k = j then h else fun _ => 1)
  rw [Finset.prod_eq_mul i j hij] at h1
  · rw [if_pos rfl, if_neg hij.symm, if_pos rfl] at h1
    rw [← h1]
    congr 1
    funext x
    rw [Finset.prod_eq_mul i j hij]
    · rw [if_pos rfl, if_neg hij.symm, if_pos rfl]
    · rintro k _ ⟨h2, h3⟩; rw [if_neg h2, if_neg h3]
    · intro h; exact absurd (Finset.mem_univ i) h
    · intro h; exact absurd (Finset.mem_univ j) h
  · rintro k _ ⟨h2, h3⟩; rw [if_neg h2, if_neg h3]; exact Uni.expect_one _ (d.axis_is hd k)
  · intro h; exact absurd (Finset.mem_univ i) h
  · intro h; exact absurd (Finset.mem_univ j) h

/-- The covariance of two components of a vector with density `f`. -/
noncomputable def covOf (f : (Fin n → ℝ) → ℝ) (i j : Fin n) : ℝ :=
  expectV f fun x => (x i - expectV f fun y => y i) * (x j - expectV f fun y => y j)

theorem UniV.cov (d : UniV n) (hd : d.Is) (i j : Fin n) :
    covOf d.pdf i j = if i = j then (d.hi i - d.lo i) ^ 2 / 12 else 0 := by
  have h1 : ∀ i, (expectV d.pdf fun y => y i) = (d.lo i + d.hi i) / 2 := by
    intro i
    rw [UniV.expect_axis d hd i (fun x => x), Uni.expect_id _ (d.axis_is hd i)]
    rfl
  unfold covOf
  rw [h1, h1]
  by_cases hij : i = j
  · subst hij
    rw [if_pos rfl]
    have h2 := Uni.expect_sq _ (d.axis_is hd i)
    rw [← UniV.expect_axis d hd i] at h2
    refine Eq.trans ?_ h2
    congr 1
    funext x
    exact (sq _).symm
  · rw [if_neg hij, UniV.expect_axes d hd i j hij (fun x => x - (d.lo i + d.hi i) / 2) (fun x => x - (d.lo j + d.hi j) / 2)]
    refine mul_eq_zero_of_left ?_ _
    rw [Uni.expect_eq _ (d.axis_is hd i), intervalIntegral.integral_comp_sub_right (fun x => x), integral_id]
    refine div_eq_zero_iff.2 (Or.inl ?_)
    simp only [UniV.axis]
    ring

/-- C148: a box is refused exactly when some lower end is not below its upper end; after the constructor and any calls
of the setters, the distribution is the one of the last box that was accepted: its density is the inverse of the volume
of the box inside and zero outside, its integral is one; every sample lies in the box, and every point of the box is a
sample.  What is missing is the mean and the covariance, which are not those of the density. -/
theorem C148_vector_partial (lo hi : Fin n → ℝ) :
    (UniV.setSupport lo hi = none ↔ ∃ i, hi i ≤ lo i) ∧
    ∀ d, UniV.setSupport lo hi = some d → ∀ os e, e = os.foldl UniV.run d → ∀ a b, (a, b) = lastBox (lo, hi) os →
      (e.lo, e.hi) = (a, b) ∧
      (∀ x ∈ Set.Icc a b, e.pdf x = ((volume (Set.Icc a b)).toReal)⁻¹) ∧ (∀ x, x ∉ Set.Icc a b → e.pdf x = 0) ∧
      expectV e.pdf (fun _ => 1) = 1 ∧
      (∀ i j, i ≠ j → e.covariance i j = covOf e.pdf i j) ∧
      (∀ u : Fin n → ℝ, u ∈ Set.Icc 0 1 → ∃ x ∈ Set.Icc a b, ∀ i, e.sample u i = some (x i)) ∧
      ∀ x ∈ Set.Icc a b, ∃ u : Fin n → ℝ, u ∈ Set.Icc 0 1 ∧ ∀ i, e.sample u i = some (x i) := by
  constructor
  · unfold UniV.setSupport
    by_cases h : ∃ i, lo i ≥ hi i
    · rw [if_pos h]; exact ⟨fun _ => h, fun _ => rfl⟩
    · rw [if_neg h]; exact ⟨fun h2 => (by cases h2), fun h1 => absurd h1 h⟩
  · intro d hd os e he a b hab
    obtain ⟨h1, h2⟩ := UniV.of_set hd
    obtain ⟨h3, h4⟩ := UniV.history d (by rw [h2]; exact ⟨h1, rfl⟩) os
    rw [← he] at h3 h4
    have h5 : (e.lo, e.hi) = (a, b) := by rw [h4, hab, h2]
    obtain ⟨h6, h7⟩ := Prod.mk.inj h5
    have h8 : ∀ i, a i < b i := h6 ▸ h7 ▸ h3.1
    refine ⟨h5, ?_, ?_, UniV.expect_one e h3, ?_, ?_, ?_⟩
    · intro x hx
      unfold UniV.pdf
      rw [h3.2, h6, h7, Real.volume_Icc_pi_toReal (fun i => (h8 i).le), one_div,
        if_pos ⟨fun i => hx.2 i, fun i => hx.1 i⟩]
    · intro x hx
      unfold UniV.pdf
      rw [h6, h7, if_neg fun h => hx ⟨fun i => h.2 i, fun i => h.1 i⟩]
    · intro i j hij
      rw [UniV.cov e h3, if_neg hij]
      unfold UniV.covariance
      rw [Matrix.smul_apply, Matrix.one_apply_ne hij, smul_zero]
    · intro u hu
      refine ⟨fun i => a i + u i * (b i - a i), ⟨fun i => ?_, fun i => ?_⟩, fun i => ?_⟩
      · have := hu.1 i; have := h8 i; simp only [Pi.zero_apply] at *; nlinarith
      · have := hu.2 i; have := h8 i; simp only [Pi.one_apply] at *; nlinarith
      · unfold UniV.sample sampleUniform
        rw [h6, h7, if_neg (not_le.2 (h8 i))]
    · intro x hx
      refine ⟨fun i => (x i - a i) / (b i - a i), ⟨fun i => ?_, fun i => ?_⟩, fun i => ?_⟩
      · exact div_nonneg (sub_nonneg.2 (hx.1 i)) (sub_pos.2 (h8 i)).le
      · exact (div_le_one (sub_pos.2 (h8 i))).2 (sub_le_sub_right (hx.2 i) _)
      · unfold UniV.sample sampleUniform
        rw [h6, h7, if_neg (not_le.2 (h8 i)), div_mul_cancel₀ _ (sub_pos.2 (h8 i)).ne']
        congr 1
        ring

/-- C148 is false for the mean and the covariance of vectors: the mean of a component is right only where the box begins
at zero, its variance only where its side is as long as the volume of the box.  In a box of sides 1, 2 and 3 no variance
is right. -/
theorem C148_vector_counterexample :
    (∀ (d : UniV n) lo hi, UniV.setSupport lo hi = some d → ∀ i,
      (d.mean i = expectV d.pdf (fun x => x i) ↔ lo i = 0) ∧
      (d.covariance i i = covOf d.pdf i i ↔ ∏ j, (hi j - lo j) = hi i - lo i)) ∧
    ∃ d : UniV 3, UniV.setSupport 0 ![1, 2, 3] = some d ∧ ∀ i, d.covariance i i ≠ covOf d.pdf i i := by
  have h0 : ∀ (n : ℕ) (d : UniV n) lo hi, UniV.setSupport lo hi = some d → ∀ i,
      (d.mean i = expectV d.pdf (fun x => x i) ↔ lo i = 0) ∧
      (d.covariance i i = covOf d.pdf i i ↔ ∏ j, (hi j - lo j) = hi i - lo i) := by
    intro n d lo hi hd i
    obtain ⟨h1, rfl⟩ := UniV.of_set hd
    have hI : (UniV.mk lo hi (∏ i, (hi i - lo i))).Is := ⟨h1, rfl⟩
    constructor
    · rw [UniV.expect_axis _ hI i (fun x => x), Uni.expect_id _ (UniV.axis_is _ hI i)]
      simp only [UniV.mean, UniV.axis]
      constructor <;> intro h <;> linarith
    · rw [UniV.cov _ hI, if_pos rfl]
      unfold UniV.covariance
      rw [Matrix.smul_apply, Matrix.one_apply_eq, smul_eq_mul, mul_one]
      simp only
      have h2 : 0 < ∏ j, (hi j - lo j) := Finset.prod_pos fun j _ => sub_pos.2 (h1 j)
      have h3 : 0 < hi i - lo i := sub_pos.2 (h1 i)
      constructor
      · intro h
        have h4 : (∏ j, (hi j - lo j)) ^ 2 = (hi i - lo i) ^ 2 := by linarith
        exact (pow_left_inj₀ h2.le h3.le two_ne_zero).1 h4
      · intro h
        rw [h]
        ring
  refine ⟨h0 n, ⟨0, ![1, 2, 3], ∏ i, ((![1, 2, 3] : Fin 3 → ℝ) i - 0)⟩, ?_, ?_⟩
  · unfold UniV.setSupport
    rw [if_neg]
    · rfl
    · rintro ⟨i, hi⟩
      fin_cases i <;> simp at hi <;> linarith
  · intro i h
    have hd : UniV.setSupport (0 : Fin 3 → ℝ) ![1, 2, 3] = some ⟨0, ![1, 2, 3], ∏ i, ((![1, 2, 3] : Fin 3 → ℝ) i - 0)⟩ := by
      unfold UniV.setSupport
      rw [if_neg]
      · rfl
      · rintro ⟨i, hi⟩
        fin_cases i <;> simp at hi <;> linarith
    have h1 := (h0 3 _ _ _ hd i).2.1 h
    fin_cases i <;> simp [Fin.prod_univ_three] at h1 <;> norm_num at h1

end Kalibr.Stats
