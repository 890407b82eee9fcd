import Verif.Robust.Model
import Mathlib.Analysis.Complex.ExponentialBounds

/-!
# Properties of the robust weights (C31, C77)
-/

namespace Kalibr.Robust

/-- What a user expects of a robust weight: it is in `(0, 1]`, is 1 for no error and never increases
with the squared error. -/
structure Valid (w : ℝ → ℝ) : Prop where
  pos : ∀ e, 0 ≤ e → 0 < w e
  le_one : ∀ e, 0 ≤ e → w e ≤ 1
  zero : w 0 = 1
  mono : ∀ e e', 0 ≤ e → e ≤ e' → w e' ≤ w e

/-- The parameters the estimators are meant for. -/
def MEst.Admissible : MEst → Prop
  | .none => True
  | .gemanMcClure s => 0 < s
  | .cauchy s => 0 < s
  | .huber k => 0 < k
  | .blakeZisserman _ w => 0 < w ∧ w < 1

theorem C31_none : Valid MEst.none.weight := by
  constructor <;> intros <;> simp [MEst.weight]

theorem C31_cauchy (s : ℝ) (hs : (MEst.cauchy s).Admissible) : Valid (MEst.cauchy s).weight := by
  have hs' : 0 < s := hs
  constructor
  · intro e he
    have : 0 ≤ e / s := by positivity
    simp only [MEst.weight]
    positivity
  · intro e he
    have : 0 ≤ e / s := by positivity
    simp only [MEst.weight]
    rw [div_le_one (by positivity)]
    linarith
  · simp [MEst.weight]
  · intro e e' he hee
    simp only [MEst.weight]
    have h1 : 0 ≤ e / s := by positivity
    have h2 : e / s ≤ e' / s := by gcongr
    apply one_div_le_one_div_of_le <;> linarith

theorem huber_large (k e : ℝ) (hk : 0 < k) (he : k * k ≤ e) : k ≤ Real.sqrt e :=
  Real.le_sqrt_of_sq_le (by rw [pow_two]; exact he)

theorem C31_huber (k : ℝ) (hk : (MEst.huber k).Admissible) : Valid (MEst.huber k).weight := by
  have hk' : 0 < k := hk
  constructor
  · intro e he
    simp only [MEst.weight]
    split
    · norm_num
    · rename_i h
      have := huber_large k e hk' (not_lt.1 h)
      have h3 : 0 < Real.sqrt e := by linarith
      positivity
  · intro e he
    simp only [MEst.weight]
    split
    · exact le_rfl
    · rename_i h
      have := huber_large k e hk' (not_lt.1 h)
      exact div_le_one_of_le₀ this (Real.sqrt_nonneg _)
  · simp only [MEst.weight]
    rw [if_pos (by positivity)]
  · intro e e' he hee
    simp only [MEst.weight]
    split
    · rename_i h
      rw [if_pos (lt_of_le_of_lt hee h)]
    · rename_i h
      have h1 := huber_large k e' hk' (not_lt.1 h)
      split
      · exact div_le_one_of_le₀ h1 (Real.sqrt_nonneg _)
      · rename_i h'
        have h2 := huber_large k e hk' (not_lt.1 h')
        have h3 := Real.sqrt_le_sqrt hee
        gcongr
        linarith

/-- Geman-McClure: positive and never increasing, but the weight of no error is `1/σ²`. -/
theorem C31_gemanMcClure_partial (s : ℝ) (hs : (MEst.gemanMcClure s).Admissible) :
    (∀ e, 0 ≤ e → 0 < (MEst.gemanMcClure s).weight e) ∧ (MEst.gemanMcClure s).weight 0 = 1 / s ∧
    ∀ e e', 0 ≤ e → e ≤ e' → (MEst.gemanMcClure s).weight e' ≤ (MEst.gemanMcClure s).weight e := by
  have hs' : 0 < s := hs
  refine ⟨fun e he => ?_, ?_, fun e e' he hee => ?_⟩
  · simp only [MEst.weight]; positivity
  · simp only [MEst.weight, add_zero]; field_simp
  · simp only [MEst.weight]
    have h0 : 0 ≤ s + e' := by linarith
    gcongr

/-- So it is a valid weight exactly for `σ² = 1`. -/
theorem C31_gemanMcClure_valid_iff (s : ℝ) (hs : (MEst.gemanMcClure s).Admissible) :
    Valid (MEst.gemanMcClure s).weight ↔ s = 1 := by
  have hs' : 0 < s := hs
  obtain ⟨h1, h2, h3⟩ := C31_gemanMcClure_partial s hs
  constructor
  · intro h
    have := h.zero
    rw [h2] at this
    field_simp at this
    exact this.symm
  · rintro rfl
    have hz : (MEst.gemanMcClure 1).weight 0 = 1 := by rw [h2]; norm_num
    exact ⟨h1, fun e he => le_of_le_of_eq (h3 0 e le_rfl he) hz, hz, h3⟩

/-- The weight exceeds one for small `σ²`. -/
theorem C31_gemanMcClure_counterexample :
    (MEst.gemanMcClure (1 / 4)).Admissible ∧ (MEst.gemanMcClure (1 / 4)).weight 0 = 4 := by
  constructor
  · show (0 : ℝ) < 1 / 4; norm_num
  · simp only [MEst.weight]; norm_num

theorem epsilon_pos (c w : ℝ) (hw : 0 < w ∧ w < 1) : 0 < computeEpsilon c w := by
  have : 0 < 1 - w := by linarith [hw.2]
  have := hw.1
  have := Real.exp_pos (-c)
  unfold computeEpsilon
  positivity

/-- Blake-Zisserman: in `(0, 1)`, never increasing, and equal to the requested weight at the cut; the
weight of no error is `1/(1+ε)`. -/
theorem C31_blakeZisserman_partial (c w : ℝ) (hw : (MEst.blakeZisserman c w).Admissible) :
    (∀ e, 0 < (MEst.blakeZisserman c w).weight e ∧ (MEst.blakeZisserman c w).weight e < 1) ∧
    (∀ e e', e ≤ e' → (MEst.blakeZisserman c w).weight e' ≤ (MEst.blakeZisserman c w).weight e) ∧
    (MEst.blakeZisserman c w).weight c = w ∧
    (MEst.blakeZisserman c w).weight 0 = 1 / (1 + computeEpsilon c w) := by
  have he := epsilon_pos c w hw
  refine ⟨fun e => ?_, fun e e' hee => ?_, ?_, ?_⟩
  · have := Real.exp_pos (-e)
    simp only [MEst.weight]
    constructor
    · positivity
    · rw [div_lt_one (by positivity)]; linarith
  · have h1 := Real.exp_pos (-e)
    have h2 := Real.exp_pos (-e')
    have h3 : Real.exp (-e') ≤ Real.exp (-e) := Real.exp_le_exp.2 (by linarith)
    simp only [MEst.weight]
    rw [div_le_div_iff₀ (by positivity) (by positivity)]
    nlinarith
  · have h1 := Real.exp_pos (-c)
    have hw1 : (0 : ℝ) < w := hw.1
    simp only [MEst.weight, computeEpsilon]
    field_simp
    ring
  · simp only [MEst.weight, neg_zero, Real.exp_zero]

/-- It is never a valid weight: an exact measurement is down-weighted. -/
theorem C31_blakeZisserman_counterexample (c w : ℝ) (hw : (MEst.blakeZisserman c w).Admissible) :
    ¬ Valid (MEst.blakeZisserman c w).weight := by
  intro h
  have := ((C31_blakeZisserman_partial c w hw).1 0).2
  rw [h.zero] at this
  exact lt_irrefl _ this

/-! ## C77: the robust cost -/

/-- The sum of the squares of the weighted error components is the term's cost. -/
theorem C77_cost_is_squared_weighted_error (m : MEst) (hm : m.Admissible) (xs : List ℝ) :
    ((xs.map fun x => m.weightedError ((xs.map fun y => y * y).sum) x).map fun y => y * y).sum =
      m.cost ((xs.map fun y => y * y).sum) := by
  have hsq : 0 ≤ (xs.map fun y => y * y).sum := List.sum_nonneg (by
    intro y hy
    obtain ⟨x, -, rfl⟩ := List.mem_map.1 hy
    exact mul_self_nonneg x)
  generalize hS : (xs.map fun y => y * y).sum = S at *
  have hw : 0 ≤ m.weight S := by
    cases m with
    | none => simp [MEst.weight]
    | gemanMcClure s => exact le_of_lt ((C31_gemanMcClure_partial s hm).1 S hsq)
    | cauchy s => exact le_of_lt ((C31_cauchy s hm).pos S hsq)
    | huber k => exact le_of_lt ((C31_huber k hm).pos S hsq)
    | blakeZisserman c w => exact le_of_lt ((C31_blakeZisserman_partial c w hm).1 S).1
  have : ∀ w : ℝ, 0 ≤ w → ∀ ys : List ℝ,
      ((ys.map fun x => Real.sqrt w * x).map fun y => y * y).sum = w * (ys.map fun y => y * y).sum := by
    intro w hw ys
    induction ys with
    | nil => simp
    | cons y ys ih =>
      simp only [List.map_cons, List.sum_cons]
      rw [ih]
      have := Real.mul_self_sqrt hw
      linear_combination (y * y) * this
  have h2 := this _ hw xs
  rw [hS] at h2
  exact h2

/-- The cost of an error term never decreases when its error grows: without robust weight, with the
Cauchy and with the Huber weight. -/
theorem C77_cost_monotone_partial (m : MEst) (hm : m.Admissible)
    (hk : m = .none ∨ (∃ s, m = .cauchy s) ∨ ∃ k, m = .huber k) (e e' : ℝ) (he : 0 ≤ e) (hee : e ≤ e') :
    m.cost e ≤ m.cost e' := by
  rcases hk with rfl | ⟨s, rfl⟩ | ⟨k, rfl⟩
  · simp only [MEst.cost, MEst.weight]; linarith
  · have hs : 0 < s := hm
    simp only [MEst.cost, MEst.weight]
    have h1 : 0 < s + e := by linarith
    have h2 : 0 < s + e' := by linarith
    have e1 : 1 / (1 + e / s) * e = s * e / (s + e) := by field_simp
    have e2 : 1 / (1 + e' / s) * e' = s * e' / (s + e') := by
      have : (1 : ℝ) + e' / s ≠ 0 := by
        have : 0 ≤ e' / s := by apply div_nonneg <;> linarith
        linarith
      field_simp
    rw [e1, e2, div_le_div_iff₀ h1 h2]
    nlinarith [mul_nonneg (le_of_lt hs) (sub_nonneg.2 hee), mul_pos hs hs]
  · have hk : 0 < k := hm
    have hl : ∀ x, k * k ≤ x → k / Real.sqrt x * x = k * Real.sqrt x := by
      intro x hx
      have h0 : 0 < x := lt_of_lt_of_le (by positivity) hx
      have h1 : 0 < Real.sqrt x := Real.sqrt_pos.2 h0
      have h2 := Real.mul_self_sqrt (le_of_lt h0)
      rw [div_mul_eq_mul_div, div_eq_iff (ne_of_gt h1)]
      linear_combination (-k) * h2
    simp only [MEst.cost, MEst.weight]
    split
    · rename_i h
      split
      · linarith
      · rename_i h'
        rw [hl e' (not_lt.1 h')]
        have := huber_large k e' hk (not_lt.1 h')
        nlinarith
    · rename_i h
      have h' : k * k ≤ e' := le_trans (not_lt.1 h) hee
      rw [if_neg (not_lt.2 h'), hl e (not_lt.1 h), hl e' h']
      have := Real.sqrt_le_sqrt hee
      gcongr

/-- With the Geman-McClure weight the cost falls beyond `σ²`: an optimiser that accepts steps that lower
the cost accepts that a large error grows. -/
theorem C77_gemanMcClure_counterexample (s : ℝ) (hs : (MEst.gemanMcClure s).Admissible) (e e' : ℝ)
    (he : s ≤ e) (hee : e < e') : (MEst.gemanMcClure s).cost e' < (MEst.gemanMcClure s).cost e := by
  have hs' : 0 < s := hs
  have h0 : 0 < e := by linarith
  have h1 : 0 < e' := by linarith
  simp only [MEst.cost, MEst.weight]
  rw [div_mul_eq_mul_div, div_mul_eq_mul_div, div_lt_div_iff₀ (by positivity) (by positivity)]
  have key : 0 < (e' - e) * (e * e' - s * s) := by
    apply mul_pos (by linarith)
    nlinarith
  nlinarith

/-- With the Blake-Zisserman weight it falls from some error on, too. -/
theorem C77_blakeZisserman_counterexample (c w : ℝ) (hw : (MEst.blakeZisserman c w).Admissible) :
    ∃ e e', 0 < e ∧ e < e' ∧ (MEst.blakeZisserman c w).cost e' < (MEst.blakeZisserman c w).cost e := by
  -- the cost at 1 is positive, the cost at e is at most e exp(-e)/ε ≤ 2/(ε e)
  have heps := epsilon_pos c w hw
  set ε := computeEpsilon c w with hε
  have h1 : 0 < (MEst.blakeZisserman c w).cost 1 := by
    simp only [MEst.cost]
    have := ((C31_blakeZisserman_partial c w hw).1 1).1
    linarith
  set a := (MEst.blakeZisserman c w).cost 1 with ha
  refine ⟨1, 2 / (ε * a) + 2, by norm_num, ?_, ?_⟩
  · have : 0 < 2 / (ε * a) := by positivity
    linarith
  · set e := 2 / (ε * a) + 2 with hee
    have he0 : 0 < e := by
      have : 0 < 2 / (ε * a) := by positivity
      linarith
    have hexp : e * e / 2 < Real.exp e := by
      have := Real.quadratic_le_exp_of_nonneg (le_of_lt he0)
      nlinarith
    show Real.exp (-e) / (Real.exp (-e) + ε) * e < a
    have hp := Real.exp_pos (-e)
    have h3 : Real.exp (-e) / (Real.exp (-e) + ε) * e < Real.exp (-e) / ε * e := by
      gcongr
      linarith
    refine lt_trans h3 ?_
    have h4 : Real.exp (-e) < 2 / (e * e) := by
      rw [Real.exp_neg, inv_eq_one_div, div_lt_div_iff₀ (Real.exp_pos e) (by positivity)]
      linarith
    have h5 : Real.exp (-e) / ε * e < 2 / (e * e) / ε * e := by gcongr
    refine lt_trans h5 ?_
    have h6 : 2 / (e * e) / ε * e = 2 / (ε * e) := by field_simp
    rw [h6, div_lt_iff₀ (by positivity)]
    have h7 : a * (ε * e) = 2 + 2 * (ε * a) := by
      rw [hee]
      field_simp
    rw [h7]
    have : 0 < ε * a := by positivity
    linarith

/-! ## Concrete cases -/

example : (MEst.cauchy 10).Admissible ∧ (MEst.cauchy 10).weight 10 = 1 / 2 := by
  constructor
  · show (0 : ℝ) < 10; norm_num
  · simp only [MEst.weight]; norm_num

example : (MEst.huber 2).Admissible ∧ (MEst.huber 2).weight 16 = 1 / 2 := by
  constructor
  · show (0 : ℝ) < 2; norm_num
  · simp only [MEst.weight]
    rw [if_neg (by norm_num), show (16 : ℝ) = 4 ^ 2 by norm_num, Real.sqrt_sq (by norm_num)]
    norm_num

example : (MEst.gemanMcClure 3).Admissible ∧ (MEst.gemanMcClure 3).weight 0 = 1 / 3 := by
  constructor
  · show (0 : ℝ) < 3; norm_num
  · simp only [MEst.weight]; norm_num

example : (MEst.blakeZisserman 16 (1 / 10)).Admissible ∧ (MEst.blakeZisserman 16 (1 / 10)).weight 16 = 1 / 10 := by
  have h : (MEst.blakeZisserman 16 (1 / 10)).Admissible := by
    constructor <;> norm_num
  exact ⟨h, (C31_blakeZisserman_partial 16 (1 / 10) h).2.2.1⟩

end Kalibr.Robust
