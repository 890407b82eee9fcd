import Verif.Quads.Shape
import Verif.Quads.Fit

/-!
# C137: which segments follow each other
-/

namespace Kalibr.Quads

open Kalibr.Target (P2)
open Real

/-- **C137, the tests.** A segment that is accepted as successor turns clockwise, and its line meets the line of the first segment
in a point no farther than the length of the first segment from the end of the first and from the start of the second. -/
theorem C137_tests (a b : Seg) (h : isChild a b = true) :
    sin (b.theta - a.theta) ≤ 0 ∧
    ∃ p : P2, OnLine p a ∧ OnLine p b ∧ distance2D p (a.x1, a.y1) ≤ a.length ∧ distance2D p (b.x0, b.y0) ≤ a.length := by
  unfold isChild at h
  simp only at h
  split_ifs at h with h1 h2 h3
  refine ⟨?_, _, (intersection_on rfl h2).1, (intersection_on rfl h2).2, (le_max_left _ _).trans (not_lt.1 h3),
    (le_max_right _ _).trans (not_lt.1 h3)⟩
  rw [← sin_mod2pi]
  exact sin_nonpos_of_nonpos_of_neg_pi_le (not_lt.1 h1) (mod2pi_spec _).2.1

/-- **C137, the tests, conversely.** A segment that turns clockwise, is not parallel and meets the first one close enough is accepted,
unless the lines meet in a point with abscissa -1 (the mark for parallel lines). -/
theorem C137_accepts (a b : Seg) (p : P2) (ht : sin (b.theta - a.theta) < 0)
    (hd : 1 / 10 ^ 10 ≤ |(a.x1 - a.x0) * (b.y1 - b.y0) - (b.x1 - b.x0) * (a.y1 - a.y0)|)
    (ha : OnLine p a) (hb : OnLine p b) (hp : p.1 ≠ -1)
    (h1 : distance2D p (a.x1, a.y1) ≤ a.length) (h2 : distance2D p (b.x0, b.y0) ≤ a.length) : isChild a b = true := by
  obtain ⟨d, hdd⟩ : ∃ d, d = (a.x1 - a.x0) * -(b.y1 - b.y0) - -(b.x1 - b.x0) * (a.y1 - a.y0) := ⟨_, rfl⟩
  have hd' : ¬ |d| < 1 / 10 ^ 10 := by
    have : d = -((a.x1 - a.x0) * (b.y1 - b.y0) - (b.x1 - b.x0) * (a.y1 - a.y0)) := by rw [hdd]; ring
    rw [not_lt, this, abs_neg]
    exact hd
  have hd0 : d ≠ 0 := by
    intro h0
    apply hd'
    rw [h0, abs_zero]
    norm_num
  have e : (Line.through (a.x0, a.y0) (a.x1, a.y1)).intersectionWith (Line.through (b.x0, b.y0) (b.x1, b.y1)) = p := by
    rw [inter_far hdd hd']
    unfold OnLine at ha hb
    show ((a.x1 - a.x0) * (-(b.y1 - b.y0) / d * (b.x0 - a.x0) + - -(b.x1 - b.x0) / d * (b.y0 - a.y0)) + a.x0,
      (a.y1 - a.y0) * (-(b.y1 - b.y0) / d * (b.x0 - a.x0) + - -(b.x1 - b.x0) / d * (b.y0 - a.y0)) + a.y0) = p
    refine Prod.ext ?_ ?_
    · show _ = p.1
      field_simp
      subst hdd
      linear_combination (b.x1 - b.x0) * ha - (a.x1 - a.x0) * hb
    · show _ = p.2
      field_simp
      subst hdd
      linear_combination (b.y1 - b.y0) * ha - (a.y1 - a.y0) * hb
  unfold isChild
  simp only
  rw [e]
  have hm : ¬ mod2pi (b.theta - a.theta) > 0 := by
    intro hm
    have := sin_nonneg_of_nonneg_of_le_pi hm.le (mod2pi_spec (b.theta - a.theta)).2.2
    rw [sin_mod2pi] at this
    linarith
  rw [if_neg hm, if_neg hp, if_neg (not_lt.2 (max_le h1 h2))]

/-- Two sides of a square of ten pixels meet the hypotheses. -/
example : isChild ⟨0, 0, 0, 10, π / 2, 10⟩ ⟨0, 10, 10, 10, 0, 10⟩ = true := by
  apply C137_accepts _ _ (0, 10)
  · norm_num
  · norm_num
  · simp [OnLine]
  · simp [OnLine]
  · norm_num
  · simp [distance2D]
  · simp [distance2D]

end Kalibr.Quads
