import Verif.Quadratic.Model
import Verif.Tactics

/-!
# C194: quadratic equations
-/

namespace Kalibr.Quadratic

theorem n_mul (a b c : ℝ) (hd : b * b - 4 * c * a ≥ 0) :
    let n := if b < 0 then Real.sqrt (b * b - 4 * c * a) - b else -Real.sqrt (b * b - 4 * c * a) - b
    n ^ 2 + 2 * b * n + 4 * a * c = 0 := by
  have hs := Real.sq_sqrt hd
  intro n
  simp only [n]
  split_ifs <;> nlinarith

theorem n_zero (a b c : ℝ) (hd : b * b - 4 * c * a ≥ 0)
    (h : (if b < 0 then Real.sqrt (b * b - 4 * c * a) - b else -Real.sqrt (b * b - 4 * c * a) - b) = 0) :
    b = 0 ∧ a * c = 0 := by
  have hn := Real.sqrt_nonneg (b * b - 4 * c * a)
  have hs := Real.sq_sqrt hd
  split_ifs at h with hb
  · linarith
  · have h1 : Real.sqrt (b * b - 4 * c * a) = 0 := by linarith
    have h2 : b = 0 := by linarith
    refine ⟨h2, ?_⟩
    rw [h1, h2] at hs
    nlinarith

/-- If the equation has a quadratic term, and not the double root zero, the results are its two solutions: both solve it,
their sum and product are the ones of the coefficients, and nothing else solves it.  The function raises exactly if the
equation has no real solution. -/
theorem C194_partial (a b c : ℝ) (ha : a ≠ 0) (h0 : ¬ (b = 0 ∧ c = 0)) :
    (solveQuadratic a b c = .raise ↔ ∀ x, ¬ Root a b c x) ∧
    (solveQuadratic a b c ≠ .raise → ∃ x y, solveQuadratic a b c = .ok (some x, some y) ∧
      (∀ z, Root a b c z ↔ z = x ∨ z = y) ∧ x + y = -b / a ∧ x * y = c / a ∧ (0 < b → a * x ≤ a * y) ∧
      (b < 0 → a * y ≤ a * x)) := by
  by_cases hd : b * b - 4 * c * a ≥ 0
  · set n := if b < 0 then Real.sqrt (b * b - 4 * c * a) - b else -Real.sqrt (b * b - 4 * c * a) - b with hn
    have hq : n ^ 2 + 2 * b * n + 4 * a * c = 0 := n_mul a b c hd
    have hne : n ≠ 0 := by
      intro h
      have := n_zero a b c hd h
      exact h0 ⟨this.1, (mul_eq_zero.1 this.2).resolve_left ha⟩
    have hs : solveQuadratic a b c = .ok (some (n / (2 * a)), some (2 * c / n)) := by
      simp only [solveQuadratic, if_pos hd, div]
      rw [← hn, if_neg hne, if_neg (by simpa using ha)]
    have hsum : n / (2 * a) + 2 * c / n = -b / a := by
      field_simp
      nlinarith
    have hprod : n / (2 * a) * (2 * c / n) = c / a := by
      field_simp
    have hroot : ∀ z, Root a b c z ↔ z = n / (2 * a) ∨ z = 2 * c / n := by
      intro z
      have hb : b = -(a * (n / (2 * a) + 2 * c / n)) := by
        rw [hsum]; field_simp
      have hc : c = a * (n / (2 * a) * (2 * c / n)) := by
        rw [hprod]; field_simp
      have : a * z ^ 2 + b * z + c = a * ((z - n / (2 * a)) * (z - 2 * c / n)) := by
        calc a * z ^ 2 + b * z + c
            = a * z ^ 2 + -(a * (n / (2 * a) + 2 * c / n)) * z + a * (n / (2 * a) * (2 * c / n)) := by rw [← hb, ← hc]
          _ = _ := by ring
      unfold Root
      rw [this, mul_eq_zero, mul_eq_zero, sub_eq_zero, sub_eq_zero]
      simp [ha]
    refine ⟨?_, fun _ => ⟨_, _, hs, hroot, hsum, hprod, ?_, ?_⟩⟩
    · rw [hs]
      constructor
      · intro h; cases h
      · intro h
        exact absurd ((hroot _).2 (Or.inl rfl)) (h _)
    · intro hb
      have h1 : a * (n / (2 * a)) = n / 2 := by field_simp
      have h2 : a * (2 * c / n) = -b - n / 2 := by
        have : 2 * c / n = -b / a - n / (2 * a) := by linarith
        rw [this]; field_simp
      have : n ≤ -b := by
        rw [hn, if_neg (by linarith)]
        linarith [Real.sqrt_nonneg (b * b - 4 * c * a)]
      rw [h1, h2]
      linarith
    · intro hb
      have h1 : a * (n / (2 * a)) = n / 2 := by field_simp
      have h2 : a * (2 * c / n) = -b - n / 2 := by
        have : 2 * c / n = -b / a - n / (2 * a) := by linarith
        rw [this]; field_simp
      have : -b ≤ n := by
        rw [hn, if_pos hb]
        linarith [Real.sqrt_nonneg (b * b - 4 * c * a)]
      rw [h1, h2]
      linarith
  · have hs : solveQuadratic a b c = .raise := by simp only [solveQuadratic, if_neg hd]
    refine ⟨⟨fun _ x hx => hd ?_, fun _ => hs⟩, fun h => absurd hs h⟩
    unfold Root at hx
    have : b * b - 4 * c * a = (2 * a * x + b) ^ 2 - 4 * a * (a * x ^ 2 + b * x + c) := by ring
    rw [this, hx, mul_zero, sub_zero]
    exact sq_nonneg _

/-- The equation `a x^2 = 0` has the solution zero, but the second result is not a number. -/
theorem C194_counterexample (a : ℝ) (ha : a ≠ 0) :
    Root a 0 0 0 ∧ ∃ x, solveQuadratic a 0 0 = .ok (some x, none) ∧ x = 0 := by
  refine ⟨by simp [Root], 0, ?_, rfl⟩
  simp [solveQuadratic, div, ha]

/-- Without a quadratic term the first result is not finite; the second one is the solution of the linear equation. -/
theorem C194_linear (b c : ℝ) (hb : b ≠ 0) :
    solveQuadratic 0 b c = .ok (none, some (-c / b)) ∧ ∀ z, Root 0 b c z ↔ z = -c / b := by
  constructor
  · have hs : Real.sqrt (b * b - 4 * c * 0) = |b| := by rw [mul_zero, sub_zero, Real.sqrt_mul_self_eq_abs]
    have hd : b * b - 4 * c * 0 ≥ 0 := by nlinarith [mul_self_nonneg b]
    simp only [solveQuadratic, if_pos hd, div, hs]
    have hn : (if b < 0 then |b| - b else -|b| - b) = -(2 * b) := by
      split_ifs with h
      · rw [abs_of_neg h]; ring
      · rw [abs_of_nonneg (not_lt.1 h)]; ring
    rw [hn, if_pos (by simp), if_neg (by simpa using hb)]
    congr 3
    field_simp
  · intro z
    unfold Root
    rw [eq_div_iff hb]
    constructor <;> intro h <;> linarith

/-- The sign: minus one, zero or one, so that the number is its sign times its size. -/
theorem C194_sign (v : ℝ) : (sgn v = 1 ↔ 0 < v) ∧ (sgn v = 0 ↔ v = 0) ∧ (sgn v = -1 ↔ v < 0) ∧ (sgn v : ℝ) * |v| = v := by
  unfold sgn
  rcases lt_trichotomy v 0 with h | h | h
  · simp [h, h.le, not_lt.2 h.le, abs_of_neg h, h.ne]
  · simp [h]
  · simp [h, h.le, not_lt.2 h.le, abs_of_pos h, h.ne']

/-- `x^2 - 3 x + 2 = 0`. -/
example : (1 : ℝ) ≠ 0 ∧ ¬ ((-3 : ℝ) = 0 ∧ (2 : ℝ) = 0) ∧ Root 1 (-3) 2 1 ∧ Root 1 (-3) 2 2 := by
  unfold Root
  norm_num

end Kalibr.Quadratic
