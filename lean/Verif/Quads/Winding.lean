import Mathlib.Analysis.Real.Pi.Bounds
import Mathlib.Tactic.LinearCombination
import Mathlib.Tactic.IntervalCases
import Verif.Quads.Model

/-!
# C136: which loops become quadrilaterals
-/

namespace Kalibr.Quads

open Kalibr.Target (P2)
open Real

theorem toInt_nonneg {x : ℝ} (h : 0 ≤ x) : toInt x = ⌊x⌋ := if_pos h

/-- `mod2pi` changes the angle by full turns and gives an angle of at most half a turn. -/
theorem mod2pi_spec (v : ℝ) : (∃ k : ℤ, mod2pi v = v + k * (2 * π)) ∧ -π ≤ mod2pi v ∧ mod2pi v ≤ π := by
  have hpi := pi_pos
  have hq : 0 ≤ |v| * (1 / (2 * π)) + 1 / 2 := by positivity
  have e : mod2pi v = if v < 0 then -(|v| - ⌊|v| * (1 / (2 * π)) + 1 / 2⌋ * (2 * π))
      else |v| - ⌊|v| * (1 / (2 * π)) + 1 / 2⌋ * (2 * π) := by
    simp only [mod2pi, toInt_nonneg hq]
  obtain ⟨k, hk⟩ : ∃ k, k = ⌊|v| * (1 / (2 * π)) + 1 / 2⌋ := ⟨_, rfl⟩
  rw [← hk] at e
  have h1 : (k : ℝ) ≤ |v| * (1 / (2 * π)) + 1 / 2 := hk ▸ Int.floor_le _
  have h2 : |v| * (1 / (2 * π)) + 1 / 2 < k + 1 := hk ▸ Int.lt_floor_add_one _
  have e2 : |v| * (1 / (2 * π)) * (2 * π) = |v| := by field_simp
  have h1' : (k : ℝ) * (2 * π) ≤ |v| + π := by nlinarith
  have h2' : |v| + π < (k + 1) * (2 * π) := by nlinarith
  by_cases hv : v < 0
  · rw [if_pos hv, abs_of_neg hv] at e
    rw [abs_of_neg hv] at h1' h2'
    exact ⟨⟨k, by rw [e]; ring⟩, by rw [e]; linarith, by rw [e]; linarith⟩
  · rw [if_neg hv, abs_of_nonneg (not_lt.1 hv)] at e
    rw [abs_of_nonneg (not_lt.1 hv)] at h1' h2'
    exact ⟨⟨-k, by rw [e]; push_cast; ring⟩, by rw [e]; linarith, by rw [e]; linarith⟩

/-- The length of a vector. -/
noncomputable def len (e : P2) : ℝ := √(e.1 ^ 2 + e.2 ^ 2)

/-- Twice the signed area: positive if the way turns left from `e` to `f` (in axes where the second
axis is to the left of the first). -/
def cross (e f : P2) : ℝ := e.1 * f.2 - e.2 * f.1

/-- The turn from one edge to the next, as the code computes it. -/
noncomputable def turn (e f : P2) : ℝ := mod2pi (atan2 f.2 f.1 - atan2 e.2 e.1)

theorem len_pos {e : P2} (h : e ≠ 0) : 0 < len e := by
  apply sqrt_pos.2
  have : e.1 ≠ 0 ∨ e.2 ≠ 0 := by
    by_contra hc
    push Not at hc
    exact h (Prod.ext hc.1 hc.2)
  rcases this with h | h <;> positivity

theorem atan2_spec {e : P2} (h : e ≠ 0) :
    e.1 = len e * cos (atan2 e.2 e.1) ∧ e.2 = len e * sin (atan2 e.2 e.1) := by
  have hz : (⟨e.1, e.2⟩ : ℂ) ≠ 0 := by
    intro hc
    exact h (Prod.ext (congrArg Complex.re hc) (congrArg Complex.im hc))
  have hn : ‖(⟨e.1, e.2⟩ : ℂ)‖ = len e := by
    rw [Complex.norm_def, Complex.normSq_apply, len]
    congr 1; ring
  have hp := len_pos h
  unfold atan2
  rw [Complex.cos_arg hz, Complex.sin_arg, hn]
  constructor <;> field_simp

theorem turn_spec {e f : P2} (he : e ≠ 0) (hf : f ≠ 0) :
    -π ≤ turn e f ∧ turn e f ≤ π ∧ len e * len f * sin (turn e f) = cross e f ∧
    (∃ k : ℤ, turn e f = atan2 f.2 f.1 - atan2 e.2 e.1 + k * (2 * π)) := by
  obtain ⟨⟨k, hk⟩, h1, h2⟩ := mod2pi_spec (atan2 f.2 f.1 - atan2 e.2 e.1)
  refine ⟨h1, h2, ?_, k, hk⟩
  obtain ⟨e1, e2⟩ := atan2_spec he
  obtain ⟨f1, f2⟩ := atan2_spec hf
  have : sin (turn e f) = sin (atan2 f.2 f.1 - atan2 e.2 e.1) := by
    unfold turn
    rw [hk, sin_add_int_mul_two_pi]
  rw [this, sin_sub]
  unfold cross
  generalize atan2 f.2 f.1 = β at *
  generalize atan2 e.2 e.1 = α at *
  linear_combination -(len f * sin β) * e1 + len f * cos β * e2 - e.1 * f2 + e.2 * f1

theorem turn_sign {e f : P2} (h : cross e f ≠ 0) :
    (cross e f < 0 → -π < turn e f ∧ turn e f < 0) ∧ (0 < cross e f → 0 < turn e f ∧ turn e f < π) := by
  have he : e ≠ 0 := by rintro rfl; simp [cross] at h
  have hf : f ≠ 0 := by rintro rfl; simp [cross] at h
  obtain ⟨h1, h2, h3, _⟩ := turn_spec he hf
  have hp : 0 < len e * len f := mul_pos (len_pos he) (len_pos hf)
  constructor
  · intro hc
    have hs : sin (turn e f) < 0 := by
      by_contra hcon
      push Not at hcon
      nlinarith [mul_nonneg hp.le hcon]
    constructor
    · rcases lt_or_eq_of_le h1 with h | h
      · exact h
      · rw [← h] at hs; simp at hs
    · by_contra hcon
      push Not at hcon
      exact absurd (sin_nonneg_of_nonneg_of_le_pi hcon h2) (not_le.2 hs)
  · intro hc
    have hs : 0 < sin (turn e f) := by
      by_contra hcon
      push Not at hcon
      nlinarith [mul_nonneg hp.le (neg_nonneg.2 hcon)]
    constructor
    · by_contra hcon
      push Not at hcon
      exact absurd (sin_nonpos_of_nonpos_of_neg_pi_le hcon h1) (not_le.2 hs)
    · rcases lt_or_eq_of_le h2 with h | h
      · exact h
      · rw [h] at hs; simp at hs

/-- The turns of a closed way add up to full turns. -/
theorem turns_sum (e₀ e₁ e₂ e₃ : P2) :
    ∃ k : ℤ, turn e₀ e₁ + turn e₁ e₂ + turn e₂ e₃ + turn e₃ e₀ = k * (2 * π) := by
  obtain ⟨⟨k0, h0⟩, _⟩ := mod2pi_spec (atan2 e₁.2 e₁.1 - atan2 e₀.2 e₀.1)
  obtain ⟨⟨k1, h1⟩, _⟩ := mod2pi_spec (atan2 e₂.2 e₂.1 - atan2 e₁.2 e₁.1)
  obtain ⟨⟨k2, h2⟩, _⟩ := mod2pi_spec (atan2 e₃.2 e₃.1 - atan2 e₂.2 e₂.1)
  obtain ⟨⟨k3, h3⟩, _⟩ := mod2pi_spec (atan2 e₀.2 e₀.1 - atan2 e₃.2 e₃.1)
  refine ⟨k0 + k1 + k2 + k3, ?_⟩
  unfold turn
  rw [h0, h1, h2, h3]
  push_cast
  ring

/-- A vector, from any angle that is its direction up to full turns. -/
theorem dir_of {e : P2} (h : e ≠ 0) {α : ℝ} (hα : ∃ k : ℤ, α = atan2 e.2 e.1 + k * (2 * π)) (u : ℝ) :
    e.1 * cos u + e.2 * sin u = len e * cos (α - u) := by
  obtain ⟨k, rfl⟩ := hα
  obtain ⟨e1, e2⟩ := atan2_spec h
  have : cos (atan2 e.2 e.1 + k * (2 * π) - u) = cos (atan2 e.2 e.1 - u) := by
    rw [show atan2 e.2 e.1 + k * (2 * π) - u = (atan2 e.2 e.1 - u) + k * (2 * π) by ring,
      cos_add_int_mul_two_pi]
  rw [this, cos_sub]
  linear_combination cos u * e1 + sin u * e2

/-- Four edges of a closed way with three turns to the right and one to the left: the turns do not add
up to zero, since the edges would lie in a half plane. -/
theorem not_half_plane {e₀ e₁ e₂ e₃ : P2} (hc0 : cross e₀ e₁ < 0) (hc1 : cross e₁ e₂ < 0)
    (hc2 : cross e₂ e₃ < 0) (hc3 : 0 < cross e₃ e₀) (hsum : e₀ + e₁ + e₂ + e₃ = 0) :
    turn e₀ e₁ + turn e₁ e₂ + turn e₂ e₃ + turn e₃ e₀ ≠ 0 := by
  intro h
  have n0 : e₀ ≠ 0 := by rintro rfl; simp [cross] at hc0
  have n1 : e₁ ≠ 0 := by rintro rfl; simp [cross] at hc0
  have n2 : e₂ ≠ 0 := by rintro rfl; simp [cross] at hc1
  have n3 : e₃ ≠ 0 := by rintro rfl; simp [cross] at hc2
  obtain ⟨a1, a2⟩ := (turn_sign hc0.ne).1 hc0
  obtain ⟨b1, b2⟩ := (turn_sign hc1.ne).1 hc1
  obtain ⟨c1, c2⟩ := (turn_sign hc2.ne).1 hc2
  obtain ⟨d1, d2⟩ := (turn_sign hc3.ne').2 hc3
  obtain ⟨_, _, _, k0, ka⟩ := turn_spec n0 n1
  obtain ⟨_, _, _, k1, kb⟩ := turn_spec n1 n2
  obtain ⟨_, _, _, k2, kc⟩ := turn_spec n2 n3
  generalize turn e₀ e₁ = a at *
  generalize turn e₁ e₂ = b at *
  generalize turn e₂ e₃ = c at *
  generalize turn e₃ e₀ = d at *
  obtain ⟨t, ht⟩ : ∃ t, t = atan2 e₀.2 e₀.1 := ⟨_, rfl⟩
  obtain ⟨u, hu⟩ : ∃ u, u = t - d / 2 := ⟨_, rfl⟩
  have q0 := dir_of n0 (α := t) ⟨0, by rw [ht]; push_cast; ring⟩ u
  have q1 := dir_of n1 (α := t + a) ⟨k0, by rw [ht, ka]; ring⟩ u
  have q2 := dir_of n2 (α := t + a + b) ⟨k0 + k1, by rw [ht, ka, kb]; push_cast; ring⟩ u
  have q3 := dir_of n3 (α := t + a + b + c) ⟨k0 + k1 + k2, by rw [ht, ka, kb, kc]; push_cast; ring⟩ u
  have pos : ∀ x : ℝ, -(d / 2) ≤ x → x ≤ d / 2 → 0 < cos x := by
    intro x h1 h2
    exact cos_pos_of_mem_Ioo ⟨by linarith, by linarith⟩
  have p0 := mul_pos (len_pos n0) (pos (t - u) (by linarith) (by linarith))
  have p1 := mul_pos (len_pos n1) (pos (t + a - u) (by linarith) (by linarith))
  have p2 := mul_pos (len_pos n2) (pos (t + a + b - u) (by linarith) (by linarith))
  have p3 := mul_pos (len_pos n3) (pos (t + a + b + c - u) (by linarith) (by linarith))
  have s1 : e₀.1 + e₁.1 + e₂.1 + e₃.1 = 0 := by simpa using congrArg Prod.fst hsum
  have s2 : e₀.2 + e₁.2 + e₂.2 + e₃.2 = 0 := by simpa using congrArg Prod.snd hsum
  have : (e₀.1 + e₁.1 + e₂.1 + e₃.1) * cos u + (e₀.2 + e₁.2 + e₂.2 + e₃.2) * sin u > 0 := by
    linarith
  rw [s1, s2] at this
  simp at this

/-! ## Quadrilaterals -/

/-- The edge that leaves corner `i`. -/
def edge (p : Fin 4 → P2) (i : Fin 4) : P2 := p (i + 1) - p i

/-- The way round turns left at corner `i + 1` (positive) or right (negative). -/
def bend (p : Fin 4 → P2) (i : Fin 4) : ℝ := cross (edge p i) (edge p (i + 1))

theorem turning_eq (p : Fin 4 → P2) : turning p = turn (edge p 0) (edge p 1) + turn (edge p 1) (edge p 2)
    + turn (edge p 2) (edge p 3) + turn (edge p 3) (edge p 0) := rfl

/-- The winding test of the code. -/
def WindingOk (p : Fin 4 → P2) : Prop := ¬ (turning p < -7 ∨ turning p > -5)

theorem winding_iff (p : Fin 4 → P2) : WindingOk p ↔ turning p = -(2 * π) := by
  have h1 := pi_gt_d2
  have h2 := pi_lt_d2
  unfold WindingOk
  push Not
  constructor
  · rintro ⟨ha, hb⟩
    obtain ⟨k, hk⟩ := turns_sum (edge p 0) (edge p 1) (edge p 2) (edge p 3)
    rw [← turning_eq] at hk
    have k1 : (k : ℝ) < 0 := by
      by_contra hc
      push Not at hc
      nlinarith
    have k2 : (-2 : ℝ) < k := by
      by_contra hc
      push Not at hc
      nlinarith
    have k1' : k < 0 := by exact_mod_cast k1
    have k2' : -2 < k := by exact_mod_cast k2
    obtain rfl : k = -1 := by omega
    rw [hk]; push_cast; ring
  · intro h
    rw [h]
    constructor <;> linarith

theorem wind_arith {c0 c1 c2 c3 t0 t1 t2 t3 : ℝ} {k : ℤ} (hk : t0 + t1 + t2 + t3 = k * (2 * π))
    (b0 : (c0 < 0 → -π < t0 ∧ t0 < 0) ∧ (0 < c0 → 0 < t0 ∧ t0 < π))
    (b1 : (c1 < 0 → -π < t1 ∧ t1 < 0) ∧ (0 < c1 → 0 < t1 ∧ t1 < π))
    (b2 : (c2 < 0 → -π < t2 ∧ t2 < 0) ∧ (0 < c2 → 0 < t2 ∧ t2 < π))
    (b3 : (c3 < 0 → -π < t3 ∧ t3 < 0) ∧ (0 < c3 → 0 < t3 ∧ t3 < π))
    (n0 : c0 < 0 → c1 < 0 → c2 < 0 → 0 < c3 → t0 + t1 + t2 + t3 ≠ 0)
    (n1 : c1 < 0 → c2 < 0 → c3 < 0 → 0 < c0 → t1 + t2 + t3 + t0 ≠ 0)
    (n2 : c2 < 0 → c3 < 0 → c0 < 0 → 0 < c1 → t2 + t3 + t0 + t1 ≠ 0)
    (n3 : c3 < 0 → c0 < 0 → c1 < 0 → 0 < c2 → t3 + t0 + t1 + t2 ≠ 0)
    (g0 : c0 ≠ 0) (g1 : c1 ≠ 0) (g2 : c2 ≠ 0) (g3 : c3 ≠ 0) :
    t0 + t1 + t2 + t3 = -(2 * π) ↔ ¬ (0 < c0 ∧ 0 < c1) ∧ ¬ (0 < c0 ∧ 0 < c2) ∧ ¬ (0 < c0 ∧ 0 < c3) ∧
      ¬ (0 < c1 ∧ 0 < c2) ∧ ¬ (0 < c1 ∧ 0 < c3) ∧ ¬ (0 < c2 ∧ 0 < c3) := by
  have hpi := pi_pos
  have small : ∀ {c t : ℝ}, ((c < 0 → -π < t ∧ t < 0) ∧ (0 < c → 0 < t ∧ t < π)) → c ≠ 0 → -π < t ∧ t < π := by
    intro c t h g
    rcases lt_or_gt_of_ne g with s | s
    · exact ⟨(h.1 s).1, by linarith [(h.1 s).2]⟩
    · exact ⟨by linarith [(h.2 s).1], (h.2 s).2⟩
  have w0 := small b0 g0
  have w1 := small b1 g1
  have w2 := small b2 g2
  have w3 := small b3 g3
  have k1 : (-2 : ℝ) < k := by
    by_contra hc
    push Not at hc
    nlinarith
  have k2 : (k : ℝ) < 2 := by
    by_contra hc
    push Not at hc
    nlinarith
  have k1' : -2 < k := by exact_mod_cast k1
  have k2' : k < 2 := by exact_mod_cast k2
  have hs : t0 + t1 + t2 + t3 = -(2 * π) ∨ t0 + t1 + t2 + t3 = 0 ∨ t0 + t1 + t2 + t3 = 2 * π := by
    have : k = -1 ∨ k = 0 ∨ k = 1 := by omega
    rcases this with rfl | rfl | rfl
    · left; rw [hk]; push_cast; ring
    · right; left; rw [hk]; push_cast; ring
    · right; right; rw [hk]; push_cast; ring
  have r1 : t1 + t2 + t3 + t0 = t0 + t1 + t2 + t3 := by ring
  have r2 : t2 + t3 + t0 + t1 = t0 + t1 + t2 + t3 := by ring
  have r3 : t3 + t0 + t1 + t2 = t0 + t1 + t2 + t3 := by ring
  rw [r1] at n1
  rw [r2] at n2
  rw [r3] at n3
  constructor
  · intro h
    refine ⟨?_, ?_, ?_, ?_, ?_, ?_⟩ <;> rintro ⟨x, y⟩
    · linarith [(b0.2 x).1, (b1.2 y).1]
    · linarith [(b0.2 x).1, (b2.2 y).1]
    · linarith [(b0.2 x).1, (b3.2 y).1]
    · linarith [(b1.2 x).1, (b2.2 y).1]
    · linarith [(b1.2 x).1, (b3.2 y).1]
    · linarith [(b2.2 x).1, (b3.2 y).1]
  · rintro ⟨h01, h02, h03, h12, h13, h23⟩
    rcases lt_or_gt_of_ne g0 with s0 | s0 <;> rcases lt_or_gt_of_ne g1 with s1 | s1 <;>
      rcases lt_or_gt_of_ne g2 with s2 | s2 <;> rcases lt_or_gt_of_ne g3 with s3 | s3 <;>
      try (first
      | exact (h01 (And.intro s0 s1)).elim
      | exact (h02 (And.intro s0 s2)).elim
      | exact (h03 (And.intro s0 s3)).elim
      | exact (h12 (And.intro s1 s2)).elim
      | exact (h13 (And.intro s1 s3)).elim
      | exact (h23 (And.intro s2 s3)).elim)
    · have := b0.1 s0
      have := b1.1 s1
      have := b2.1 s2
      have := b3.1 s3
      rcases hs with h | h | h
      · exact h
      · linarith
      · linarith
    · have hn := n0 s0 s1 s2 s3
      have := b0.1 s0
      have := b1.1 s1
      have := b2.1 s2
      rcases hs with h | h | h
      · exact h
      · exact absurd h hn
      · linarith
    · have hn := n3 s3 s0 s1 s2
      have := b0.1 s0
      have := b1.1 s1
      have := b3.1 s3
      rcases hs with h | h | h
      · exact h
      · exact absurd h hn
      · linarith
    · have hn := n2 s2 s3 s0 s1
      have := b0.1 s0
      have := b2.1 s2
      have := b3.1 s3
      rcases hs with h | h | h
      · exact h
      · exact absurd h hn
      · linarith
    · have hn := n1 s1 s2 s3 s0
      have := b1.1 s1
      have := b2.1 s2
      have := b3.1 s3
      rcases hs with h | h | h
      · exact h
      · exact absurd h hn
      · linarith

/-- **C136.** If no two consecutive edges are parallel, the winding test accepts exactly the
quadrilaterals that turn left at no more than one corner. -/
theorem C136_winding (p : Fin 4 → P2) (hg : ∀ i, bend p i ≠ 0) :
    WindingOk p ↔ ∀ i j, i ≠ j → ¬ (0 < bend p i ∧ 0 < bend p j) := by
  rw [winding_iff, turning_eq]
  have hs : edge p 0 + edge p 1 + edge p 2 + edge p 3 = 0 := by
    show p 1 - p 0 + (p 2 - p 1) + (p 3 - p 2) + (p 0 - p 3) = 0
    abel
  have r1 : edge p 1 + edge p 2 + edge p 3 + edge p 0 = 0 := by rw [← hs]; abel
  have r2 : edge p 2 + edge p 3 + edge p 0 + edge p 1 = 0 := by rw [← hs]; abel
  have r3 : edge p 3 + edge p 0 + edge p 1 + edge p 2 = 0 := by rw [← hs]; abel
  obtain ⟨k, hk⟩ := turns_sum (edge p 0) (edge p 1) (edge p 2) (edge p 3)
  have main := wind_arith (c0 := bend p 0) (c1 := bend p 1) (c2 := bend p 2) (c3 := bend p 3) hk
    (turn_sign (hg 0)) (turn_sign (hg 1)) (turn_sign (hg 2)) (turn_sign (hg 3))
    (fun a b c d => not_half_plane a b c d hs) (fun a b c d => not_half_plane a b c d r1)
    (fun a b c d => not_half_plane a b c d r2) (fun a b c d => not_half_plane a b c d r3)
    (hg 0) (hg 1) (hg 2) (hg 3)
  rw [main]
  constructor
  · rintro ⟨h01, h02, h03, h12, h13, h23⟩ i j hij ⟨x, y⟩
    have e : ∀ i : Fin 4, i = 0 ∨ i = 1 ∨ i = 2 ∨ i = 3 := by decide
    rcases e i with rfl | rfl | rfl | rfl <;> rcases e j with rfl | rfl | rfl | rfl
    · exact hij rfl
    · exact h01 ⟨x, y⟩
    · exact h02 ⟨x, y⟩
    · exact h03 ⟨x, y⟩
    · exact h01 ⟨y, x⟩
    · exact hij rfl
    · exact h12 ⟨x, y⟩
    · exact h13 ⟨x, y⟩
    · exact h02 ⟨y, x⟩
    · exact h12 ⟨y, x⟩
    · exact hij rfl
    · exact h23 ⟨x, y⟩
    · exact h03 ⟨y, x⟩
    · exact h13 ⟨y, x⟩
    · exact h23 ⟨y, x⟩
    · exact hij rfl
  · intro h
    exact ⟨h 0 1 (by decide), h 0 2 (by decide), h 0 3 (by decide), h 1 2 (by decide), h 1 3 (by decide),
      h 2 3 (by decide)⟩

/-- Two edges of the quadrilateral that are not neighbours cross at inner points. -/
def Hourglass (p : Fin 4 → P2) : Prop :=
  ∃ i : Fin 4, ∃ s t : ℝ, 0 < s ∧ s < 1 ∧ 0 < t ∧ t < 1 ∧
    p i + s • (p (i + 1) - p i) = p (i + 2) + t • (p (i + 3) - p (i + 2))

/-- **C136.** In general position: convex quadrilaterals that turn right are accepted, convex ones that
turn left and those that cross themselves are refused. -/
theorem C136_shapes (p : Fin 4 → P2) (hg : ∀ i, bend p i ≠ 0) :
    ((∀ i, bend p i < 0) → WindingOk p) ∧ ((∀ i, 0 < bend p i) → ¬ WindingOk p) ∧
    (Hourglass p → ¬ WindingOk p) := by
  refine ⟨?_, ?_, ?_⟩
  · intro h
    rw [C136_winding p hg]
    rintro i j _ ⟨hi, _⟩
    exact absurd hi (not_lt.2 (h i).le)
  · intro h hw
    exact (C136_winding p hg).1 hw 0 1 (by decide) ⟨h 0, h 1⟩
  · rintro ⟨i, s, t, s0, s1, t0, t1, hx⟩ hw
    have hc := (C136_winding p hg).1 hw
    have e1 : (p i).1 + s * ((p (i + 1)).1 - (p i).1) = (p (i + 2)).1 + t * ((p (i + 3)).1 - (p (i + 2)).1) := by
      simpa using congrArg Prod.fst hx
    have e2 : (p i).2 + s * ((p (i + 1)).2 - (p i).2) = (p (i + 2)).2 + t * ((p (i + 3)).2 - (p (i + 2)).2) := by
      simpa using congrArg Prod.snd hx
    have b0 : bend p i = ((p (i + 1)).1 - (p i).1) * ((p (i + 2)).2 - (p (i + 1)).2)
        - ((p (i + 1)).2 - (p i).2) * ((p (i + 2)).1 - (p (i + 1)).1) := by
      unfold bend edge cross
      rw [show i + 1 + 1 = i + 2 by rw [add_assoc]; rfl]; rfl
    have b1 : bend p (i + 1) = ((p (i + 2)).1 - (p (i + 1)).1) * ((p (i + 3)).2 - (p (i + 2)).2)
        - ((p (i + 2)).2 - (p (i + 1)).2) * ((p (i + 3)).1 - (p (i + 2)).1) := by
      unfold bend edge cross
      rw [show i + 1 + 1 = i + 2 by rw [add_assoc]; rfl, show i + 2 + 1 = i + 3 by rw [add_assoc]; rfl]; rfl
    have b2 : bend p (i + 2) = ((p (i + 3)).1 - (p (i + 2)).1) * ((p i).2 - (p (i + 3)).2)
        - ((p (i + 3)).2 - (p (i + 2)).2) * ((p i).1 - (p (i + 3)).1) := by
      unfold bend edge cross
      rw [show i + 2 + 1 = i + 3 by rw [add_assoc]; rfl,
        show i + 3 + 1 = i by rw [add_assoc]; simp [show (3 : Fin 4) + 1 = 0 from rfl]]; rfl
    have b3 : bend p (i + 3) = ((p i).1 - (p (i + 3)).1) * ((p (i + 1)).2 - (p i).2)
        - ((p i).2 - (p (i + 3)).2) * ((p (i + 1)).1 - (p i).1) := by
      unfold bend edge cross
      rw [show i + 3 + 1 = i by rw [add_assoc]; simp [show (3 : Fin 4) + 1 = 0 from rfl]]; rfl
    have g0 := hg i
    have g1 := hg (i + 1)
    have k03 : (1 - t) * bend p i + t * bend p (i + 3) = 0 := by
      rw [b0, b3]
      linear_combination ((p (i + 1)).2 - (p i).2) * e1 - ((p (i + 1)).1 - (p i).1) * e2
    have k12 : s * bend p (i + 1) + (1 - s) * bend p (i + 2) = 0 := by
      rw [b1, b2]
      linear_combination ((p (i + 3)).2 - (p (i + 2)).2) * e1 * (-1) + ((p (i + 3)).1 - (p (i + 2)).1) * e2
    have ne : ∀ a b : Fin 4, a ≠ b → i + a ≠ i + b := fun a b h k => h (add_left_cancel k)
    have ne0 : ∀ a : Fin 4, a ≠ 0 → i ≠ i + a := fun a h k => h (by simpa using k.symm)
    have p03 : 0 < bend p i ∨ 0 < bend p (i + 3) := by
      rcases lt_or_gt_of_ne g0 with h | h
      · right
        by_contra hcon
        push Not at hcon
        nlinarith [mul_pos (sub_pos.2 t1) (neg_pos.2 h), mul_nonneg t0.le (neg_nonneg.2 hcon)]
      · exact Or.inl h
    have p12 : 0 < bend p (i + 1) ∨ 0 < bend p (i + 2) := by
      rcases lt_or_gt_of_ne g1 with h | h
      · right
        by_contra hcon
        push Not at hcon
        nlinarith [mul_pos s0 (neg_pos.2 h), mul_nonneg (sub_pos.2 s1).le (neg_nonneg.2 hcon)]
      · exact Or.inl h
    rcases p03 with h | h <;> rcases p12 with h' | h'
    · exact hc _ _ (ne0 1 (by decide)) ⟨h, h'⟩
    · exact hc _ _ (ne0 2 (by decide)) ⟨h, h'⟩
    · exact hc _ _ (ne 3 1 (by decide)) ⟨h, h'⟩
    · exact hc _ _ (ne 3 2 (by decide)) ⟨h, h'⟩

end Kalibr.Quads
