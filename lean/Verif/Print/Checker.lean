import Verif.Print.Model
import Verif.Target.GridProps
import Verif.Tactics

/-!
# C134: the printed checkerboard
-/

namespace Kalibr.Print

open Kalibr.Target (P2 P3)

/-- The black points of the printed checkerboard. -/
theorem black_checker (cols rows : ℕ) (sx sy : ℝ) (p : P2) :
    Black (checkerRects cols rows sx sy) p ↔ ∃ x y : ℕ, x ≤ cols ∧ y ≤ rows ∧ (x + y) % 2 = 0 ∧
      x * (sx * 100) ≤ p.1 ∧ p.1 ≤ (x + 1) * (sx * 100) ∧ y * (sy * 100) ≤ p.2 ∧
      p.2 ≤ (y + 1) * (sy * 100) := by
  have e : ∀ (n : ℕ) (z : ℝ), (n : ℝ) * z + z = (n + 1) * z := fun n z => by ring
  simp only [Black, checkerRects, List.mem_flatMap, List.mem_range, List.mem_filterMap]
  constructor
  · rintro ⟨r, ⟨x, hx, y, hy, h⟩, hc⟩
    by_cases hm : (x + y + 1) % 2 ≠ 0
    · rw [if_pos hm] at h
      injection h with h
      subst h
      simp only [Rect.Covers, e] at hc
      exact ⟨x, y, by omega, by omega, by omega, hc⟩
    · rw [if_neg hm] at h; cases h
  · rintro ⟨x, y, hx, hy, hp, hc⟩
    refine ⟨_, ⟨x, by omega, y, by omega, if_pos (by omega)⟩, ?_⟩
    simpa only [Rect.Covers, e] using hc

/-- Centre of a box, in centimetres. -/
noncomputable def boxCentre (sx sy : ℝ) (x y : ℕ) : P2 :=
  ((x + 1 / 2) * (sx * 100), (y + 1 / 2) * (sy * 100))

theorem box_int {A : ℝ} (hA : 0 < A) {x i : ℕ} (h1 : x * A ≤ ((i : ℝ) + 1 / 2) * A)
    (h2 : ((i : ℝ) + 1 / 2) * A ≤ (x + 1) * A) : x = i := by
  have a1 := le_of_mul_le_mul_right h1 hA
  have a2 := le_of_mul_le_mul_right h2 hA
  have b1 : (x : ℝ) < i + 1 := by linarith
  have b2 : (i : ℝ) < x + 1 := by linarith
  have c1 : x < i + 1 := by exact_mod_cast b1
  have c2 : i < x + 1 := by exact_mod_cast b2
  omega

/-- **C134**: box `(x, y)` of the printed checkerboard, counted from the lower left one, is black exactly
when `x + y` is even; there are `cols + 1` times `rows + 1` boxes. -/
theorem C134_boxes {cols rows : ℕ} {sx sy : ℝ} (hx : 0 < sx) (hy : 0 < sy) (x y : ℕ) :
    Black (checkerRects cols rows sx sy) (boxCentre sx sy x y) ↔
      x ≤ cols ∧ y ≤ rows ∧ (x + y) % 2 = 0 := by
  rw [black_checker]
  constructor
  · rintro ⟨x', y', h1, h2, h3, h4, h5, h6, h7⟩
    have e1 := box_int (by positivity) h4 h5
    have e2 := box_int (by positivity) h6 h7
    subst e1 e2
    exact ⟨h1, h2, h3⟩
  · rintro ⟨h1, h2, h3⟩
    refine ⟨x, y, h1, h2, h3, ?_, ?_, ?_, ?_⟩ <;> simp only [boxCentre] <;>
      apply mul_le_mul_of_nonneg_right _ (by positivity) <;> linarith

example : Black (checkerRects 6 7 (1 / 20) (1 / 20)) (boxCentre (1 / 20) (1 / 20) 3 5) :=
  (C134_boxes (by norm_num) (by norm_num) 3 5).mpr (by decide)

/-- **C134**: the printed board has exactly `cols` times `rows` inner corners: a lattice point has a
box on each side of it exactly for these, and there black and white boxes alternate. -/
theorem C134_corners {cols rows : ℕ} {sx sy : ℝ} (hx : 0 < sx) (hy : 0 < sy) {i j : ℕ} (h1 : 1 ≤ i)
    (h2 : i ≤ cols) (h3 : 1 ≤ j) (h4 : j ≤ rows) :
    (Black (checkerRects cols rows sx sy) (boxCentre sx sy (i - 1) (j - 1)) ↔
      Black (checkerRects cols rows sx sy) (boxCentre sx sy i j)) ∧
    (Black (checkerRects cols rows sx sy) (boxCentre sx sy (i - 1) j) ↔
      Black (checkerRects cols rows sx sy) (boxCentre sx sy i (j - 1))) ∧
    (Black (checkerRects cols rows sx sy) (boxCentre sx sy i j) ↔
      ¬ Black (checkerRects cols rows sx sy) (boxCentre sx sy i (j - 1))) := by
  simp only [C134_boxes hx hy]
  refine ⟨?_, ?_, ?_⟩ <;> omega

/-- **C134**: a board turned by half a turn looks the same exactly when the numbers of columns and rows
have an even sum.  Then no observation tells which corner is which. -/
theorem C134_half_turn {cols rows : ℕ} {sx sy : ℝ} (hx : 0 < sx) (hy : 0 < sy) :
    (∀ p : P2, Black (checkerRects cols rows sx sy) p ↔
      Black (checkerRects cols rows sx sy)
        ((cols + 1) * (sx * 100) - p.1, (rows + 1) * (sy * 100) - p.2)) ↔ (cols + rows) % 2 = 0 := by
  constructor
  · intro h
    have h0 := (h (boxCentre sx sy 0 0)).mp ((C134_boxes hx hy 0 0).mpr (by simp))
    have e : (((cols : ℝ) + 1) * (sx * 100) - (boxCentre sx sy 0 0).1,
        ((rows : ℝ) + 1) * (sy * 100) - (boxCentre sx sy 0 0).2) = boxCentre sx sy cols rows := by
      refine Prod.ext ?_ ?_ <;> simp [boxCentre] <;> ring
    rw [e] at h0
    exact ((C134_boxes hx hy cols rows).mp h0).2.2
  · intro hev
    have key : ∀ p : P2, Black (checkerRects cols rows sx sy) p →
        Black (checkerRects cols rows sx sy)
          ((cols + 1) * (sx * 100) - p.1, (rows + 1) * (sy * 100) - p.2) := by
      intro p hp
      rw [black_checker] at hp ⊢
      obtain ⟨x, y, h1, h2, h3, h4, h5, h6, h7⟩ := hp
      refine ⟨cols - x, rows - y, by omega, by omega, by omega, ?_, ?_, ?_, ?_⟩ <;>
        simp only [Nat.cast_sub h1, Nat.cast_sub h2] <;> linarith
    intro p
    refine ⟨key p, fun h => ?_⟩
    have := key _ h
    simpa using this

/-- **C134**: the default board, of 6 times 7 corners, can be told from its half turn; the board of the
usage message, of 6 times 6 corners, cannot. -/
theorem C134_usage_counterexample :
    ¬ (∀ p : P2, Black (checkerRects 6 7 (1 / 20) (1 / 20)) p ↔ Black (checkerRects 6 7 (1 / 20) (1 / 20))
        (((6 : ℕ) + 1) * (1 / 20 * 100) - p.1, ((7 : ℕ) + 1) * (1 / 20 * 100) - p.2)) ∧
    ∀ p : P2, Black (checkerRects 6 6 (1 / 20) (1 / 10)) p ↔ Black (checkerRects 6 6 (1 / 20) (1 / 10))
        (((6 : ℕ) + 1) * (1 / 20 * 100) - p.1, ((6 : ℕ) + 1) * (1 / 10 * 100) - p.2) := by
  constructor
  · intro h
    have := (C134_half_turn (cols := 6) (rows := 7) (sx := 1 / 20) (sy := 1 / 20) (by norm_num)
      (by norm_num)).mp h
    omega
  · exact (C134_half_turn (cols := 6) (rows := 6) (sx := 1 / 20) (sy := 1 / 10) (by norm_num)
      (by norm_num)).mpr (by norm_num)

/-- Inner corner of the printed board in column `c` from the left and row `r` from the top, in
centimetres. -/
noncomputable def printedInner (rows : ℕ) (sx sy : ℝ) (r c : ℕ) : P2 :=
  ((c + 1) * (sx * 100), (rows - r) * (sy * 100))

/-- **C134**: a target built with the numbers the board was printed with has the shape of the board.
Turning the paper by a quarter turn and moving it takes each inner corner, counted from the left and
from the top, to the target point of its row and column. -/
theorem C134_shape {rows cols : ℕ} {sx sy : ℝ} {mem : List P3} (hm : mem.length = rows * cols)
    (hx : 0 < sx) (hy : 0 < sy) :
    ∃ t, Target.checkerboard rows cols sy sx mem = .ok t ∧
      ∀ r c, r < rows → c < cols → ∃ X Y : ℝ, t.gridPoint r c = .ok (X, Y, 0) ∧
        100 * X = -(printedInner rows sx sy r c).2 + rows * (sy * 100) ∧
        100 * Y = (printedInner rows sx sy r c).1 - sx * 100 := by
  obtain ⟨t, ht, _, _, _, hp⟩ := (Target.C88_checkerboard rows cols sy sx mem hm).1 ⟨hy, hx⟩
  refine ⟨t, ht, fun r c hr hc => ⟨_, _, hp r hr c hc, ?_, ?_⟩⟩
  · simp only [printedInner]; ring
  · simp only [printedInner]; ring

example : (List.replicate 42 ((0, 0, 0) : P3)).length = 7 * 6 := by simp

end Kalibr.Print
