import Verif.Quads.Winding

/-!
# C136: what is known of an accepted quadrilateral
-/

namespace Kalibr.Quads

open Kalibr.Target (P2)
open Real

/-- `q` is on the line through the two ends of the segment. -/
def OnLine (q : P2) (s : Seg) : Prop := (s.x1 - s.x0) * (q.2 - s.y0) = (s.y1 - s.y0) * (q.1 - s.x0)

theorem inter_near {a b : Line} {d : ℝ} (hd : d = a.dx * -b.dy - -b.dx * a.dy) (h : |d| < 1 / 10 ^ 10) :
    a.intersectionWith b = (-1, 0) := by
  subst hd
  exact if_pos h

theorem inter_far {a b : Line} {d : ℝ} (hd : d = a.dx * -b.dy - -b.dx * a.dy) (h : ¬ |d| < 1 / 10 ^ 10) :
    a.intersectionWith b = (a.dx * (-b.dy / d * (b.p.1 - a.p.1) + - -b.dx / d * (b.p.2 - a.p.2)) + a.p.1,
      a.dy * (-b.dy / d * (b.p.1 - a.p.1) + - -b.dx / d * (b.p.2 - a.p.2)) + a.p.2) := by
  subst hd
  exact if_neg h

theorem intersection_on {a b : Seg} {p : P2}
    (hp : (Line.through (a.x0, a.y0) (a.x1, a.y1)).intersectionWith (Line.through (b.x0, b.y0) (b.x1, b.y1)) = p)
    (h : p.1 ≠ -1) : OnLine p a ∧ OnLine p b := by
  obtain ⟨d, hd⟩ : ∃ d, d = (a.x1 - a.x0) * -(b.y1 - b.y0) - -(b.x1 - b.x0) * (a.y1 - a.y0) := ⟨_, rfl⟩
  by_cases hs : |d| < 1 / 10 ^ 10
  · rw [inter_near hd hs] at hp
    exact absurd (by rw [← hp]) h
  · rw [inter_far hd hs] at hp
    have hd0 : d ≠ 0 := by
      intro h0
      apply hs
      rw [h0, abs_zero]
      norm_num
    subst hp
    constructor
    · unfold OnLine
      show (a.x1 - a.x0) * ((a.y1 - a.y0) * _ + a.y0 - a.y0) = (a.y1 - a.y0) * ((a.x1 - a.x0) * _ + a.x0 - a.x0)
      ring
    · unfold OnLine
      show (b.x1 - b.x0) * ((a.y1 - a.y0) * (-(b.y1 - b.y0) / d * (b.x0 - a.x0) + - -(b.x1 - b.x0) / d * (b.y0 - a.y0)) + a.y0 - b.y0)
        = (b.y1 - b.y0) * ((a.x1 - a.x0) * (-(b.y1 - b.y0) / d * (b.x0 - a.x0) + - -(b.x1 - b.x0) / d * (b.y0 - a.y0)) + a.x0 - b.x0)
      field_simp
      rw [hd]
      ring

/-- **C136.** An accepted quadrilateral has its corners on the lines of the two segments that meet there,
no side and no diagonal shorter than six pixels, no side more than 32 times as long as another, and its
recorded perimeter is the sum of the lengths of the four segments. -/
theorem C136_accepted (seg : ℕ → Seg) (s0 s1 s2 s3 : ℕ) (p : Fin 4 → P2) (per : ℝ)
    (h : quadOf seg [s0, s1, s2, s3, s0] = some (p, per)) :
    (OnLine (p 0) (seg s0) ∧ OnLine (p 0) (seg s1)) ∧ (OnLine (p 1) (seg s1) ∧ OnLine (p 1) (seg s2)) ∧
    (OnLine (p 2) (seg s2) ∧ OnLine (p 2) (seg s3)) ∧ (OnLine (p 3) (seg s3) ∧ OnLine (p 3) (seg s0)) ∧
    WindingOk p ∧ (∀ i j, i ≠ j → 6 ≤ distance2D (p i) (p j)) ∧
    (∀ i j, distance2D (p i) (p (i + 1)) ≤ 32 * distance2D (p j) (p (j + 1))) ∧
    per = (seg s0).length + (seg s1).length + (seg s2).length + (seg s3).length := by
  unfold quadOf at h
  simp only at h
  obtain ⟨q, hq⟩ : ∃ q, q = corners seg [s0, s1, s2, s3, s0] := ⟨_, rfl⟩
  rw [← hq] at h
  by_cases h1 : (q 0).1 = -1 ∨ (q 1).1 = -1 ∨ (q 2).1 = -1 ∨ (q 3).1 = -1
  · rw [if_pos h1] at h; cases h
  rw [if_neg h1] at h
  by_cases h2 : turning q < -7 ∨ turning q > -5
  · rw [if_pos h2] at h; cases h
  rw [if_neg h2] at h
  by_cases h3 : sizesOk q = true
  swap
  · rw [if_neg h3] at h; cases h
  rw [if_pos h3] at h
  have hp : q = p := congrArg Prod.fst (Option.some.inj h)
  have hper : perimeter seg [s0, s1, s2, s3, s0] = per := congrArg Prod.snd (Option.some.inj h)
  subst hp
  push Not at h1 h2
  simp only [sizesOk, Bool.not_eq_true', Bool.or_eq_false_iff, decide_eq_false_iff_not, not_or, not_lt, gt_iff_lt] at h3
  obtain ⟨⟨d0, d1, d2, d3, d4, d5⟩, dm⟩ := h3
  have sym : ∀ a b : P2, distance2D a b = distance2D b a := by
    intro a b
    unfold distance2D
    congr 1; ring
  have e : ∀ i : Fin 4, i = 0 ∨ i = 1 ∨ i = 2 ∨ i = 3 := by decide
  refine ⟨intersection_on (by rw [hq]; rfl) h1.1, intersection_on (by rw [hq]; rfl) h1.2.1,
    intersection_on (by rw [hq]; rfl) h1.2.2.1, intersection_on (by rw [hq]; rfl) h1.2.2.2, ?_, ?_, ?_, ?_⟩
  · unfold WindingOk
    push Not
    exact h2
  · intro i j hij
    rcases e i with rfl | rfl | rfl | rfl <;> rcases e j with rfl | rfl | rfl | rfl <;>
      first
        | exact absurd rfl hij
        | assumption
        | (rw [sym]; assumption)
  · have top : ∀ i : Fin 4, distance2D (q i) (q (i + 1)) ≤ max (max (distance2D (q 0) (q 1)) (distance2D (q 1) (q 2)))
        (max (distance2D (q 2) (q 3)) (distance2D (q 3) (q 0))) := by
      intro i
      rcases e i with rfl | rfl | rfl | rfl
      · exact le_trans (le_max_left _ _) (le_max_left _ _)
      · exact le_trans (le_max_right _ _) (le_max_left _ _)
      · exact le_trans (le_max_left _ _) (le_max_right _ _)
      · exact le_trans (le_max_right _ _) (le_max_right _ _)
    have bot : ∀ i : Fin 4, min (min (distance2D (q 0) (q 1)) (distance2D (q 1) (q 2)))
        (min (distance2D (q 2) (q 3)) (distance2D (q 3) (q 0))) ≤ distance2D (q i) (q (i + 1)) := by
      intro i
      rcases e i with rfl | rfl | rfl | rfl
      · exact le_trans (min_le_left _ _) (min_le_left _ _)
      · exact le_trans (min_le_left _ _) (min_le_right _ _)
      · exact le_trans (min_le_right _ _) (min_le_left _ _)
      · exact le_trans (min_le_right _ _) (min_le_right _ _)
    intro i j
    linarith [top i, bot j]
  · rw [← hper]
    simp [perimeter, List.range_succ]

/-- The four sides of an upright square of ten pixels with its left side at `a`. -/
noncomputable def squareSegs (a : ℝ) : ℕ → Seg
  | 0 => ⟨a + 10, 0, a, 0, 0, 10⟩
  | 1 => ⟨a, 0, a, 10, 0, 10⟩
  | 2 => ⟨a, 10, a + 10, 10, 0, 10⟩
  | _ => ⟨a + 10, 10, a + 10, 0, 0, 10⟩

theorem square_corners (a : ℝ) : corners (squareSegs a) [0, 1, 2, 3, 0] 0 = (a, 0) ∧
    corners (squareSegs a) [0, 1, 2, 3, 0] 1 = (a, 10) ∧ corners (squareSegs a) [0, 1, 2, 3, 0] 2 = (a + 10, 10) ∧
    corners (squareSegs a) [0, 1, 2, 3, 0] 3 = (a + 10, 0) := by
  refine ⟨?_, ?_, ?_, ?_⟩
  · show Line.intersectionWith (Line.through (a + 10, 0) (a, 0)) (Line.through (a, 0) (a, 10)) = (a, 0)
    rw [inter_far (d := 100) (by simp only [Line.through]; ring) (by norm_num)]
    simp only [Line.through]
    ext <;> simp <;> ring
  · show Line.intersectionWith (Line.through (a, 0) (a, 10)) (Line.through (a, 10) (a + 10, 10)) = (a, 10)
    rw [inter_far (d := 100) (by simp only [Line.through]; ring) (by norm_num)]
    simp only [Line.through]
    ext <;> simp <;> ring
  · show Line.intersectionWith (Line.through (a, 10) (a + 10, 10)) (Line.through (a + 10, 10) (a + 10, 0)) = (a + 10, 10)
    rw [inter_far (d := 100) (by simp only [Line.through]; ring) (by norm_num)]
    simp only [Line.through]
    ext <;> simp <;> ring
  · show Line.intersectionWith (Line.through (a + 10, 10) (a + 10, 0)) (Line.through (a + 10, 0) (a, 0)) = (a + 10, 0)
    rw [inter_far (d := 100) (by simp only [Line.through]; ring) (by norm_num)]
    simp only [Line.through]
    ext <;> simp <;> ring

/-- **C136, the sign for parallel lines.** The same square is accepted everywhere but where a corner has
the abscissa that marks parallel lines. -/
theorem C136_sentinel_counterexample :
    (∀ a : ℝ, a ≠ -1 → a ≠ -11 → ∃ q, quadOf (squareSegs a) [0, 1, 2, 3, 0] = some q) ∧
    quadOf (squareSegs (-1)) [0, 1, 2, 3, 0] = none := by
  constructor
  · intro a h1 h11
    obtain ⟨c0, c1, c2, c3⟩ := square_corners a
    obtain ⟨q, hq⟩ : ∃ q, q = corners (squareSegs a) [0, 1, 2, 3, 0] := ⟨_, rfl⟩
    unfold quadOf
    simp only
    rw [← hq] at c0 c1 c2 c3 ⊢
    have hb : ∀ i, bend q i < 0 := by
      have e : ∀ i : Fin 4, i = 0 ∨ i = 1 ∨ i = 2 ∨ i = 3 := by decide
      intro i
      rcases e i with rfl | rfl | rfl | rfl
      · show cross (q 1 - q 0) (q 2 - q 1) < 0
        rw [c0, c1, c2]; simp [cross]
      · show cross (q 2 - q 1) (q 3 - q 2) < 0
        rw [c1, c2, c3]; simp [cross]
      · show cross (q 3 - q 2) (q 0 - q 3) < 0
        rw [c0, c2, c3]; simp [cross]
      · show cross (q 0 - q 3) (q 1 - q 0) < 0
        rw [c0, c1, c3]; simp [cross]
    have hw := (C136_shapes q (fun i => (hb i).ne)).1 hb
    unfold WindingOk at hw
    have hs : sizesOk q = true := by
      have s1 : √((10 : ℝ) * 10) = 10 := by
        rw [show (10 : ℝ) * 10 = 10 ^ 2 by norm_num]; exact sqrt_sq (by norm_num)
      have s2 : (6 : ℝ) ≤ √(100 + 100) := le_sqrt_of_sq_le (by norm_num)
      have f0 : distance2D (q 0) (q 1) = 10 := by rw [c0, c1]; simp [distance2D, s1]
      have f1 : distance2D (q 1) (q 2) = 10 := by rw [c1, c2]; simp [distance2D, s1]
      have f2 : distance2D (q 2) (q 3) = 10 := by rw [c2, c3]; simp [distance2D, s1]
      have f3 : distance2D (q 3) (q 0) = 10 := by rw [c0, c3]; simp [distance2D, s1]
      have f4 : 6 ≤ distance2D (q 0) (q 2) := by
        rw [c0, c2]; unfold distance2D
        apply le_sqrt_of_sq_le
        ring_nf; norm_num
      have f5 : 6 ≤ distance2D (q 1) (q 3) := by
        rw [c1, c3]; unfold distance2D
        apply le_sqrt_of_sq_le
        ring_nf; norm_num
      unfold sizesOk
      simp only [f0, f1, f2, f3]
      simp only [Bool.not_eq_true', Bool.or_eq_false_iff, decide_eq_false_iff_not, not_or, not_lt, gt_iff_lt]
      exact ⟨⟨by norm_num, by norm_num, by norm_num, by norm_num, f4, f5⟩, by norm_num⟩
    refine ⟨(q, perimeter (squareSegs a) [0, 1, 2, 3, 0]), ?_⟩
    rw [if_neg, if_neg, if_pos hs]
    · exact hw
    · rw [c0, c1, c2, c3]
      have : a + 10 ≠ -1 := fun h => h11 (by linarith)
      simp [h1, this]
  · unfold quadOf
    simp only
    rw [if_pos]
    left
    rw [(square_corners (-1)).1]

/-- The hypotheses of `C136_accepted` are met. -/
example : ∃ p per, quadOf (squareSegs 3) [0, 1, 2, 3, 0] = some (p, per) := by
  obtain ⟨⟨p, per⟩, h⟩ := C136_sentinel_counterexample.1 3 (by norm_num) (by norm_num)
  exact ⟨p, per, h⟩

/-- A dart: it turns left at one corner, no edges are parallel, and the test accepts it. -/
example : let p : Fin 4 → P2 := ![(0, 0), (3, 9), (6, 0), (3, 3)]
    (∀ i, bend p i ≠ 0) ∧ WindingOk p := by
  intro p
  have hg : ∀ i, bend p i ≠ 0 ∧ (0 < bend p i → i = 2) := by
    have e : ∀ i : Fin 4, i = 0 ∨ i = 1 ∨ i = 2 ∨ i = 3 := by decide
    intro i
    rcases e i with rfl | rfl | rfl | rfl
    · have : bend p 0 = cross ((3, 9) - (0, 0)) ((6, 0) - (3, 9)) := rfl
      rw [this]; norm_num [cross]
    · have : bend p 1 = cross ((6, 0) - (3, 9)) ((3, 3) - (6, 0)) := rfl
      rw [this]; norm_num [cross]
    · have : bend p 2 = cross ((3, 3) - (6, 0)) ((0, 0) - (3, 3)) := rfl
      rw [this]; norm_num [cross]
    · have : bend p 3 = cross ((0, 0) - (3, 3)) ((3, 9) - (0, 0)) := rfl
      rw [this]; norm_num [cross]
  refine ⟨fun i => (hg i).1, (C136_winding p (fun i => (hg i).1)).2 ?_⟩
  rintro i j hij ⟨x, y⟩
  exact hij (((hg i).2 x).trans ((hg j).2 y).symm)

/-- An hourglass in general position. -/
example : let p : Fin 4 → P2 := ![(0, 0), (8, 0), (0, 8), (8, 8)]
    (∀ i, bend p i ≠ 0) ∧ Hourglass p := by
  intro p
  constructor
  · have e : ∀ i : Fin 4, i = 0 ∨ i = 1 ∨ i = 2 ∨ i = 3 := by decide
    intro i
    rcases e i with rfl | rfl | rfl | rfl
    · have : bend p 0 = cross ((8, 0) - (0, 0)) ((0, 8) - (8, 0)) := rfl
      rw [this]; norm_num [cross]
    · have : bend p 1 = cross ((0, 8) - (8, 0)) ((8, 8) - (0, 8)) := rfl
      rw [this]; norm_num [cross]
    · have : bend p 2 = cross ((8, 8) - (0, 8)) ((0, 0) - (8, 8)) := rfl
      rw [this]; norm_num [cross]
    · have : bend p 3 = cross ((0, 0) - (8, 8)) ((8, 0) - (0, 0)) := rfl
      rw [this]; norm_num [cross]
  · refine ⟨1, 1 / 2, 1 / 2, by norm_num, by norm_num, by norm_num, by norm_num, ?_⟩
    show ((8, 0) : P2) + (1 / 2 : ℝ) • (((0, 8) : P2) - (8, 0)) = (8, 8) + (1 / 2 : ℝ) • (((0, 0) : P2) - (8, 8))
    ext <;> norm_num

end Kalibr.Quads
