import Verif.Printed.Read

/-!
# Cases of the printed target, perspective and checkerboards
-/

namespace Kalibr.Printed

open Kalibr.Target (P2 P3)
open Kalibr.Tag (turns pattern)

theorem corner_zero (size sp : ℝ) (x y : ℕ) :
    corner size sp x y 0 = (x * (1 + sp) * size, y * (1 + sp) * size) := rfl

theorem corner_one (size sp : ℝ) (x y : ℕ) :
    corner size sp x y 1 = (x * (1 + sp) * size + size, y * (1 + sp) * size) := rfl

theorem corner_two (size sp : ℝ) (x y : ℕ) :
    corner size sp x y 2 = (x * (1 + sp) * size + size, y * (1 + sp) * size + size) := rfl

theorem corner_three (size sp : ℝ) (x y : ℕ) :
    corner size sp x y 3 = (x * (1 + sp) * size, y * (1 + sp) * size + size) := rfl

/-- The hypotheses of `C182_found` are met for a board of six by seven tags that is looked at from above, where the
quadrilateral of the tag in column 2 and row 3 begins at its upper right corner. -/
example : ∃ (page : List Rect) (white : P2 → Bool) (H : P2 → P2),
    aprilBoard 6 7 (8 / 100) (3 / 10) 6 printed36h11 (some [0, 41]) = .ok page ∧ 6 * 3 + 2 ∉ [0, 41] ∧
    Affine id ∧ (∀ p, white (id p) = true ↔ ¬ Black page p) ∧
    Fits H fun i => id (corner (100 * (8 / 100)) (3 / 10) 2 3 (i + 2)) := by
  classical
  obtain ⟨page, hp⟩ := (C182_printable 6 7 6 (8 / 100) (3 / 10) printed36h11 [0, 41]).2
    ⟨⟨by norm_num, by norm_num⟩, fun x y hx hy _ => by
      have : printed36h11.length = 587 := by decide +kernel
      omega⟩
  refine ⟨page, fun p => decide (¬ Black page p), fun p =>
    (2 * (1 + 3 / 10) * 8 + 4 - 4 * p.1, 3 * (1 + 3 / 10) * 8 + 4 - 4 * p.2), hp, by decide,
    ⟨0, 1, 0, 0, 0, 1, fun p => by simp⟩, fun p => by simp, ?_, ?_, ?_, ?_⟩
  · show _ = corner _ _ 2 3 2
    rw [corner_two]
    norm_num
  · show _ = corner _ _ 2 3 3
    rw [corner_three]
    norm_num
  · show _ = corner _ _ 2 3 0
    rw [corner_zero]
    norm_num
  · show _ = corner _ _ 2 3 1
    rw [corner_one]
    norm_num

/-- A page seen in perspective: what is further up is smaller. -/
noncomputable def tilted (p : P2) : P2 := (p.1 / (1 + p.2), p.2 / (1 + p.2))

/-- **C182**: `C182_read` does not hold for views in perspective, because the cells are looked for as if there were none:
at the tag number zero, half as large at its upper edge as at its lower one, another word is read. -/
theorem C182_perspective_counterexample : ∃ (page : List Rect) (white : P2 → Bool),
    aprilBoard 1 1 (1 / 100) (3 / 10) 6 printed36h11 (some []) = .ok page ∧
    (∀ p, -1 < p.2 → (white (tilted p) = true ↔ ¬ Black page p)) ∧
    pattern (readCode 6 2 white fun i => tilted (corner 1 (3 / 10) 0 0 i)) ≠ pattern (printed36h11.getD 0 0) := by
  classical
  obtain ⟨page, hp⟩ := (C182_printable 1 1 6 (1 / 100) (3 / 10) printed36h11 []).2
    ⟨⟨by norm_num, by norm_num⟩, fun x y hx hy _ => by
      have : printed36h11.length = 587 := by decide +kernel
      omega⟩
  refine ⟨page, fun z => decide (¬ Black page (z.1 / (1 - z.2), z.2 / (1 - z.2))), hp, fun p h => ?_, fun h => ?_⟩
  · have h1 : (1 + p.2) ≠ 0 := by linarith
    have h2 : 1 - p.2 / (1 + p.2) = 1 / (1 + p.2) := by field_simp; ring
    have e : ((tilted p).1 / (1 - (tilted p).2), (tilted p).2 / (1 - (tilted p).2)) = p := by
      simp only [tilted, h2]
      ext <;> simp only <;> field_simp
    simp only [decide_eq_true_eq, e]
  · have hbit : pattern (printed36h11.getD 0 0) 2 = true := by decide +kernel
    rw [← h] at hbit
    unfold pattern readCode at hbit
    simp only at hbit
    rw [rows_testBit (fun k' ix => decide (¬ Black page
      ((interpolate01 (fun i => tilted (corner 1 (3 / 10) 0 0 i))
        (((2 : ℕ) + ix + 1 / 2) / (2 * (2 : ℕ) + (6 : ℕ))) (((2 : ℕ) + (6 - 1 - k' : ℕ) + 1 / 2) / (2 * (2 : ℕ) + (6 : ℕ)))).1 /
        (1 - (interpolate01 (fun i => tilted (corner 1 (3 / 10) 0 0 i))
        (((2 : ℕ) + ix + 1 / 2) / (2 * (2 : ℕ) + (6 : ℕ))) (((2 : ℕ) + (6 - 1 - k' : ℕ) + 1 / 2) / (2 * (2 : ℕ) + (6 : ℕ)))).2),
       (interpolate01 (fun i => tilted (corner 1 (3 / 10) 0 0 i))
        (((2 : ℕ) + ix + 1 / 2) / (2 * (2 : ℕ) + (6 : ℕ))) (((2 : ℕ) + (6 - 1 - k' : ℕ) + 1 / 2) / (2 * (2 : ℕ) + (6 : ℕ)))).2 /
        (1 - (interpolate01 (fun i => tilted (corner 1 (3 / 10) 0 0 i))
        (((2 : ℕ) + ix + 1 / 2) / (2 * (2 : ℕ) + (6 : ℕ))) (((2 : ℕ) + (6 - 1 - k' : ℕ) + 1 / 2) / (2 * (2 : ℕ) + (6 : ℕ)))).2))))
      6 6 2 (by norm_num)] at hbit
    rw [Bool.and_eq_true, decide_eq_true_eq, decide_eq_true_eq] at hbit
    apply hbit.2
    have hpt : interpolate01 (fun i => tilted (corner 1 (3 / 10) 0 0 i))
        (((2 : ℕ) + (6 - 1 - 2 % 6 : ℕ) + 1 / 2) / (2 * (2 : ℕ) + (6 : ℕ)))
        (((2 : ℕ) + (6 - 1 - (6 - 1 - 2 / 6) : ℕ) + 1 / 2) / (2 * (2 : ℕ) + (6 : ℕ))) = (77 / 160, 1 / 8) := by
      ext <;> norm_num [interpolate01, tilted, corner_zero, corner_one, corner_two, corner_three]
    rw [hpt]
    obtain ⟨⟨hs, _⟩, hd⟩ := board_ok hp
    refine ((drawTags_black _ _ _ hd).1).2 ⟨0, 0, mem_places.2 ⟨by norm_num, by norm_num⟩, by simp,
      ⟨0, 0, 1, 2 / 10⟩, ?_, ?_⟩
    · simp only [tag, List.mem_append]
      refine Or.inl (Or.inl ?_)
      norm_num [borders]
    · norm_num [Rect.Covers]

/-! ## Checkerboards -/

/-- **C182**: inside the box in column `x` and row `y` a printed checkerboard is black exactly if their sum is even. -/
theorem C182_boxes (nCols nRows : ℕ) (sx sy : ℝ) (x y : ℕ) (hx : x ≤ nCols) (hy : y ≤ nRows) (u v : ℝ)
    (hu0 : 0 < u) (hu1 : u < 100 * sx) (hv0 : 0 < v) (hv1 : v < 100 * sy) :
    Black (checkerboard nCols nRows sx sy) (x * (100 * sx) + u, y * (100 * sy) + v) ↔ (x + y) % 2 = 0 := by
  have one : ∀ {s w : ℝ} {a b : ℕ}, 0 < w → w < s → b * s ≤ a * s + w → a * s + w ≤ b * s + s → b = a := by
    intro s w a b h0 h1 h2 h3
    have := apart (size := s) (sp := 0) (u := w) (x := a) (x' := b) le_rfl h0 h1 (by simpa using h2) (by simpa using h3)
    exact this
  constructor
  · rintro ⟨r, hr, h1, h2, h3, h4⟩
    simp only [checkerboard, List.mem_flatMap, List.mem_range] at hr
    obtain ⟨x', hx', y', hy', hr⟩ := hr
    split at hr
    · next hc =>
      rw [List.mem_singleton] at hr
      subst hr
      simp only at h1 h2 h3 h4
      have ex := one (a := x) (b := x') hu0 hu1 (by linarith) (by linarith : _ ≤ (x' : ℝ) * (100 * sx) + 100 * sx)
      have ey := one (a := y) (b := y') hv0 hv1 (by linarith) (by linarith : _ ≤ (y' : ℝ) * (100 * sy) + 100 * sy)
      subst ex ey
      omega
    · simp at hr
  · intro h
    refine ⟨⟨x * (sx * 100), y * (sy * 100), sx * 100, sy * 100⟩, ?_, ?_⟩
    · simp only [checkerboard, List.mem_flatMap, List.mem_range]
      exact ⟨x, by omega, y, by omega, by rw [if_pos (by omega)]; exact List.mem_singleton.2 rfl⟩
    · simp only [Rect.Covers]
      refine ⟨?_, ?_, ?_, ?_⟩ <;> linarith

/-- **C182**: the points of the checkerboard the detector looks for are, with the axes exchanged, shifted by one box and
in centimetres, the points of the printed one where four boxes meet with alternating colours. -/
theorem C182_corners (nCols nRows : ℕ) (sx sy : ℝ) (hx : 0 < sx) (hy : 0 < sy) (mem : List P3)
    (hm : mem.length = nRows * nCols) (r c : ℕ) (hr : r < nRows) (hc : c < nCols) :
    ∃ t P, Target.checkerboard nRows nCols sy sx mem = .ok t ∧ t.gridPoint r c = .ok P ∧ P.2.2 = 0 ∧
      ∀ u v, 0 < u → u < 100 * sx → 0 < v → v < 100 * sy →
        let page := checkerboard nCols nRows sx sy
        let X := 100 * (P.2.1 + sx)
        let Y := 100 * (P.1 + sy)
        (Black page (X + u, Y + v) ↔ (r + c) % 2 = 0) ∧ (Black page (X - u, Y - v) ↔ (r + c) % 2 = 0) ∧
        (Black page (X + u, Y - v) ↔ (r + c) % 2 = 1) ∧ (Black page (X - u, Y + v) ↔ (r + c) % 2 = 1) := by
  obtain ⟨t, ht, _, _, _, hp⟩ := (Target.C88_checkerboard nRows nCols sy sx mem hm).1 ⟨hy, hx⟩
  refine ⟨t, _, ht, hp r hr c hc, rfl, fun u v hu0 hu1 hv0 hv1 => ?_⟩
  have b1 := C182_boxes nCols nRows sx sy (c + 1) (r + 1) hc hr u v hu0 hu1 hv0 hv1
  have b2 := C182_boxes nCols nRows sx sy c r hc.le hr.le (100 * sx - u) (100 * sy - v) (by linarith) (by linarith)
    (by linarith) (by linarith)
  have b3 := C182_boxes nCols nRows sx sy (c + 1) r hc hr.le u (100 * sy - v) hu0 hu1 (by linarith) (by linarith)
  have b4 := C182_boxes nCols nRows sx sy c (r + 1) hc.le hr (100 * sx - u) v (by linarith) (by linarith) hv0 hv1
  push_cast at b1 b2 b3 b4
  refine ⟨?_, ?_, ?_, ?_⟩
  · rw [show (100 * (sx * c + sx) + u, 100 * (sy * r + sy) + v) =
      (((c : ℝ) + 1) * (100 * sx) + u, ((r : ℝ) + 1) * (100 * sy) + v) by ext <;> simp only <;> ring, b1]
    omega
  · rw [show (100 * (sx * c + sx) - u, 100 * (sy * r + sy) - v) =
      ((c : ℝ) * (100 * sx) + (100 * sx - u), (r : ℝ) * (100 * sy) + (100 * sy - v)) by ext <;> simp only <;> ring, b2]
    omega
  · rw [show (100 * (sx * c + sx) + u, 100 * (sy * r + sy) - v) =
      (((c : ℝ) + 1) * (100 * sx) + u, (r : ℝ) * (100 * sy) + (100 * sy - v)) by ext <;> simp only <;> ring, b3]
    omega
  · rw [show (100 * (sx * c + sx) - u, 100 * (sy * r + sy) + v) =
      ((c : ℝ) * (100 * sx) + (100 * sx - u), ((r : ℝ) + 1) * (100 * sy) + v) by ext <;> simp only <;> ring, b4]
    omega

end Kalibr.Printed
