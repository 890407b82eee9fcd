import Mathlib.Data.Nat.Bitwise
import Mathlib.Tactic.FinCases
import Mathlib.Tactic.Module
import Verif.Printed.Model
import Verif.Tag.Tables
import Verif.Target.GridProps
import Verif.Tactics

/-!
# The printed target is the one the detector looks for
-/

namespace Kalibr.Printed

open Kalibr.Target (P2 P3)

/-! ## Vocabulary -/

/-- The corners of the tag in column `x` and row `y` of a board with tags of the size `size`, counter-clockwise from the
lower left one. -/
noncomputable def corner (size spacing : ℝ) (x y : ℕ) : Fin 4 → P2 :=
  let X := x * (1 + spacing) * size
  let Y := y * (1 + spacing) * size
  ![(X, Y), (X + size, Y), (X + size, Y + size), (X, Y + size)]

/-- The centre of the cell in column `j` from the left and row `r` from below of the `d * d` cells of a tag with `b`
cells of border. -/
noncomputable def cell (size spacing : ℝ) (d b x y j r : ℕ) : P2 :=
  (x * (1 + spacing) * size + (b + j + 1 / 2) * (size / (d + b * 2)),
   y * (1 + spacing) * size + (b + r + 1 / 2) * (size / (d + b * 2)))

/-! ## What is printed -/

/-- Inside a tag along one axis means inside no other tag ... -/
theorem apart {size sp u : ℝ} (hs : 0 ≤ sp) (h0 : 0 < u) (h1 : u < size) {x x' : ℕ}
    (ha : x' * (1 + sp) * size ≤ x * (1 + sp) * size + u)
    (hb : x * (1 + sp) * size + u ≤ x' * (1 + sp) * size + size) : x' = x := by
  have hz : 0 < size := by linarith
  have hp : size ≤ (1 + sp) * size := by nlinarith
  rcases lt_trichotomy x' x with h | h | h
  · have : (x' : ℝ) + 1 ≤ x := by exact_mod_cast h
    nlinarith [mul_le_mul_of_nonneg_right this (by linarith : 0 ≤ (1 + sp) * size)]
  · exact h
  · have : (x : ℝ) + 1 ≤ x' := by exact_mod_cast h
    nlinarith [mul_le_mul_of_nonneg_right this (by linarith : 0 ≤ (1 + sp) * size)]

/-- ... and in no gap. -/
theorem no_gap {size sp u : ℝ} (hs : 0 ≤ sp) (h0 : 0 < u) (h1 : u < size) {x x' : ℕ}
    (ha : x' * (1 + sp) * size - sp * size ≤ x * (1 + sp) * size + u)
    (hb : x * (1 + sp) * size + u ≤ x' * (1 + sp) * size) : False := by
  have hz : 0 < size := by linarith
  have hp : size ≤ (1 + sp) * size := by nlinarith
  rcases Nat.lt_or_ge x x' with h | h
  · have : (x : ℝ) + 1 ≤ x' := by exact_mod_cast h
    nlinarith [mul_le_mul_of_nonneg_right this (by linarith : 0 ≤ (1 + sp) * size)]
  · have : (x' : ℝ) ≤ x := by exact_mod_cast h
    nlinarith [mul_le_mul_of_nonneg_right this (by linarith : 0 ≤ (1 + sp) * size)]

theorem mem_bits {x y s : ℝ} {d b code : ℕ} {r : Rect} :
    r ∈ bits x y s d b code ↔ ∃ i j, i < d ∧ j < d ∧ codeMatrix d code i j = true ∧
      r = ⟨x + (j + b : ℕ) * s, y + (((b : ℝ) - 1) + d - i) * s, s, s⟩ := by
  simp only [bits, List.mem_flatMap, List.mem_range]
  constructor
  · rintro ⟨i, hi, j, hj, h⟩
    split at h
    · exact ⟨i, j, hi, hj, by assumption, List.mem_singleton.1 h⟩
    · simp at h
  · rintro ⟨i, j, hi, hj, hc, rfl⟩
    exact ⟨i, hi, j, hj, by simp [hc]⟩

theorem codeMatrix_eq {d i j : ℕ} (hi : i < d) (code : ℕ) :
    codeMatrix d code i j = !code.testBit (d * (d - 1 - i) + (d - 1 - j)) := rfl

/-- Whether a tag covers the centre of a cell of a tag. -/
theorem tag_covers {size sp : ℝ} (hz : 0 < size) (hs : 0 ≤ sp) {d b x y j r x' y' code : ℕ} (hj : j < d) (hr : r < d) :
    Black (tag (x' * (1 + sp) * size) (y' * (1 + sp) * size) size sp d b code) (cell size sp d b x y j r) ↔
      (x' = x ∧ y' = y) ∧ code.testBit (d * r + (d - 1 - j)) = false := by
  have hd : (0 : ℝ) < d + b * 2 := by
    have : (0 : ℝ) < d := by exact_mod_cast (by omega : 0 < d)
    positivity
  set s := size / (d + b * 2) with hsdef
  have hs0 : 0 < s := by positivity
  have hsz : size = (d + b * 2) * s := by rw [hsdef]; field_simp
  have hjd : (j : ℝ) + 1 ≤ d := by exact_mod_cast hj
  have hrd : (r : ℝ) + 1 ≤ d := by exact_mod_cast hr
  have hb0 : (0 : ℝ) ≤ b := Nat.cast_nonneg b
  have hj0 : (0 : ℝ) ≤ j := Nat.cast_nonneg j
  have hr0 : (0 : ℝ) ≤ r := Nat.cast_nonneg r
  have hm : ∀ {t t' : ℝ}, t ≤ t' → t * s ≤ t' * s := fun h => mul_le_mul_of_nonneg_right h hs0.le
  have hb1 : 0 ≤ b * s := mul_nonneg hb0 hs0.le
  have hu2 : b * s < (b + j + 1 / 2) * s := mul_lt_mul_of_pos_right (by linarith) hs0
  have hu3 : (b + j + 1 / 2) * s < size - b * s := by
    rw [hsz, ← sub_mul]
    exact mul_lt_mul_of_pos_right (by linarith) hs0
  have hv2 : b * s < (b + r + 1 / 2) * s := mul_lt_mul_of_pos_right (by linarith) hs0
  have hv3 : (b + r + 1 / 2) * s < size - b * s := by
    rw [hsz, ← sub_mul]
    exact mul_lt_mul_of_pos_right (by linarith) hs0
  have hu0 : 0 < (b + j + 1 / 2) * s := by linarith
  have hu1 : (b + j + 1 / 2) * s < size := by linarith
  have hv0 : 0 < (b + r + 1 / 2) * s := by linarith
  have hv1 : (b + r + 1 / 2) * s < size := by linarith
  constructor
  · rintro ⟨q, hq, hc⟩
    obtain ⟨c1, c2, c3, c4⟩ := hc
    simp only [cell, ← hsdef] at c1 c2 c3 c4
    simp only [tag, ← hsdef, List.mem_append] at hq
    rcases hq with (hq | hq) | hq
    · exfalso
      simp only [borders, List.mem_cons, List.not_mem_nil, or_false] at hq
      rcases hq with rfl | rfl | rfl | rfl <;> simp only at c1 c2 c3 c4
      · have hy := apart hs hv0 hv1 c3 (by linarith)
        rw [hy] at c4
        linarith
      · have hy := apart (x := y) (x' := y') hs hv0 hv1 (by linarith) (by linarith)
        rw [hy] at c3
        linarith
      · have hy := apart (x := x) (x' := x') hs hu0 hu1 (by linarith) (by linarith)
        rw [hy] at c1
        linarith
      · have hy := apart hs hu0 hu1 c1 (by linarith)
        rw [hy] at c2
        linarith
    · obtain ⟨i, k, hi, hk, hcode, rfl⟩ := mem_bits.1 hq
      simp only at c1 c2 c3 c4
      have hid : (i : ℝ) + 1 ≤ d := by exact_mod_cast hi
      have hkd : (k : ℝ) + 1 ≤ d := by exact_mod_cast hk
      have hi0 : (0 : ℝ) ≤ i := Nat.cast_nonneg i
      have hk0 : (0 : ℝ) ≤ k := Nat.cast_nonneg k
      push_cast at c1 c2
      have hx : x' = x := by
        refine apart hs hu0 hu1 ?_ ?_
        · linarith [mul_nonneg (add_nonneg hk0 hb0) hs0.le]
        · have : ((k : ℝ) + b + 1) * s ≤ (d + b * 2) * s := hm (by linarith)
          rw [← hsz, add_mul _ (1 : ℝ), one_mul] at this
          linarith
      have hy : y' = y := by
        refine apart hs hv0 hv1 ?_ ?_
        · have : 0 ≤ ((b : ℝ) - 1 + d - i) * s := mul_nonneg (by linarith) hs0.le
          linarith
        · have : ((b : ℝ) - 1 + d - i + 1) * s ≤ (d + b * 2) * s := hm (by linarith)
          rw [← hsz, add_mul _ (1 : ℝ), one_mul] at this
          linarith
      subst hx hy
      have e1 : ((k : ℝ) + b) * s ≤ (b + j + 1 / 2) * s := by linarith
      have e2 : (b + j + 1 / 2) * s ≤ ((k : ℝ) + b + 1) * s := by rw [add_mul _ (1 : ℝ), one_mul]; linarith
      have e3 : ((b : ℝ) - 1 + d - i) * s ≤ (b + r + 1 / 2) * s := by linarith
      have e4 : (b + r + 1 / 2) * s ≤ ((b : ℝ) - 1 + d - i + 1) * s := by
        rw [add_mul _ (1 : ℝ), one_mul]
        linarith
      have f1 := le_of_mul_le_mul_right e1 hs0
      have f2 := le_of_mul_le_mul_right e2 hs0
      have f3 := le_of_mul_le_mul_right e3 hs0
      have f4 := le_of_mul_le_mul_right e4 hs0
      have g1 : (k : ℝ) < j + 1 := by linarith
      have g2 : (j : ℝ) < k + 1 := by linarith
      have g3 : (d : ℝ) < r + i + 2 := by linarith
      have g4 : (r : ℝ) + i < d := by linarith
      have g1 : k < j + 1 := by exact_mod_cast g1
      have g2 : j < k + 1 := by exact_mod_cast g2
      have g3 : d < r + i + 2 := by exact_mod_cast g3
      have g4 : r + i < d := by exact_mod_cast g4
      have hkj : k = j := by omega
      have hri : d - 1 - i = r := by omega
      rw [codeMatrix_eq hi, hkj, hri] at hcode
      exact ⟨⟨rfl, rfl⟩, by simpa using hcode⟩
    · exfalso
      simp only [squares, List.mem_cons, List.not_mem_nil, or_false] at hq
      rcases hq with rfl | rfl | rfl | rfl <;> simp only at c1 c2 c3 c4
      · exact no_gap hs hu0 hu1 c1 (by linarith)
      · exact no_gap hs hv0 hv1 c3 (by linarith)
      · exact no_gap (x := x) (x' := x' + 1) hs hu0 hu1 (by push_cast; linarith) (by push_cast; linarith)
      · exact no_gap hs hu0 hu1 c1 (by linarith)
  · rintro ⟨⟨rfl, rfl⟩, hcode⟩
    refine ⟨⟨x' * (1 + sp) * size + (j + b : ℕ) * s, y' * (1 + sp) * size + (((b : ℝ) - 1) + d - (d - 1 - r : ℕ)) * s, s, s⟩,
      ?_, ?_⟩
    · simp only [tag, ← hsdef, List.mem_append]
      refine Or.inl (Or.inr (mem_bits.2 ⟨d - 1 - r, j, by omega, hj, ?_, rfl⟩))
      rw [codeMatrix_eq (by omega), show d - 1 - (d - 1 - r) = r by omega, hcode]
      rfl
    · have hc : ((d - 1 - r : ℕ) : ℝ) = d - 1 - r := by
        rw [Nat.cast_sub (by omega), Nat.cast_sub (by omega)]
        push_cast
        ring
      simp only [Rect.Covers, cell, ← hsdef, hc]
      push_cast
      have f1 : ((j : ℝ) + b) * s ≤ (b + j + 1 / 2) * s := hm (by linarith)
      have f2 : (b + j + 1 / 2) * s ≤ ((j : ℝ) + b + 1) * s := hm (by linarith)
      have f3 : ((b : ℝ) - 1 + d - (d - 1 - r)) * s ≤ (b + r + 1 / 2) * s := hm (by linarith)
      have f4 : (b + r + 1 / 2) * s ≤ ((b : ℝ) - 1 + d - (d - 1 - r) + 1) * s := hm (by linarith)
      rw [add_mul _ (1 : ℝ), one_mul] at f2 f4
      refine ⟨?_, ?_, ?_, ?_⟩ <;> linarith

theorem mem_places {nCols nRows x y : ℕ} : (x, y) ∈ places nCols nRows ↔ x < nCols ∧ y < nRows := by
  simp only [places, List.mem_flatMap, List.mem_range, List.mem_map, Prod.mk.injEq]
  constructor
  · rintro ⟨a, ha, b, hb, rfl, rfl⟩
    exact ⟨hb, ha⟩
  · rintro ⟨hx, hy⟩
    exact ⟨y, hy, x, hx, rfl, rfl⟩

/-- What a drawn list of tags covers. -/
theorem drawTags_black {nCols : ℕ} {size sp : ℝ} {d : ℕ} {codes ids : List ℕ} (p : P2) :
    ∀ (l : List (ℕ × ℕ)) (page : List Rect), drawTags nCols size sp d codes (some ids) l = .ok page →
      (Black page p ↔ ∃ x y, (x, y) ∈ l ∧ nCols * y + x ∉ ids ∧
        Black (tag (x * (1 + sp) * size) (y * (1 + sp) * size) size sp d 2 (codes.getD (nCols * y + x) 0)) p) ∧
      ∀ x y, (x, y) ∈ l → nCols * y + x ∉ ids → nCols * y + x < codes.length := by
  intro l
  induction l with
  | nil =>
    intro page h
    simp only [drawTags, Out.ok.injEq] at h
    subst h
    exact ⟨⟨fun ⟨r, hr, _⟩ => by simp at hr, fun ⟨x, y, h, _⟩ => by simp at h⟩, fun x y h => by simp at h⟩
  | cons a l ih =>
    obtain ⟨x, y⟩ := a
    intro page h
    simp only [drawTags] at h
    by_cases hm : nCols * y + x ∈ ids
    · rw [if_pos hm] at h
      obtain ⟨h1, h2⟩ := ih page h
      refine ⟨h1.trans ⟨fun ⟨x', y', hl, hn, hb⟩ => ⟨x', y', List.mem_cons_of_mem _ hl, hn, hb⟩, ?_⟩, ?_⟩
      · rintro ⟨x', y', hl, hn, hb⟩
        rcases List.mem_cons.1 hl with he | hl
        · cases he
          exact absurd hm hn
        · exact ⟨x', y', hl, hn, hb⟩
      · intro x' y' hl hn
        rcases List.mem_cons.1 hl with he | hl
        · cases he
          exact absurd hm hn
        · exact h2 x' y' hl hn
    · rw [if_neg hm] at h
      cases hc : codes[nCols * y + x]? with
      | none => rw [hc] at h; simp at h
      | some code =>
        rw [hc] at h
        have hlt : nCols * y + x < codes.length := (List.getElem?_eq_some_iff.1 hc).1
        have hg : codes.getD (nCols * y + x) 0 = code := by simp [List.getD, hc]
        cases hr : drawTags nCols size sp d codes (some ids) l with
        | raise => rw [hr] at h; simp at h
        | ub => rw [hr] at h; simp at h
        | ok r =>
          rw [hr] at h
          simp only [Out.bind, Out.ok.injEq] at h
          subst h
          obtain ⟨h1, h2⟩ := ih r hr
          constructor
          · constructor
            · rintro ⟨q, hq, hcov⟩
              rcases List.mem_append.1 hq with hq | hq
              · exact ⟨x, y, List.mem_cons_self, hm, q, by rw [hg]; exact hq, hcov⟩
              · obtain ⟨x', y', hl, hn, hb⟩ := h1.1 ⟨q, hq, hcov⟩
                exact ⟨x', y', List.mem_cons_of_mem _ hl, hn, hb⟩
            · rintro ⟨x', y', hl, hn, q, hq, hcov⟩
              rcases List.mem_cons.1 hl with he | hl
              · cases he
                rw [hg] at hq
                exact ⟨q, List.mem_append_left _ hq, hcov⟩
              · obtain ⟨q', hq', hc'⟩ := h1.2 ⟨x', y', hl, hn, q, hq, hcov⟩
                exact ⟨q', List.mem_append_right _ hq', hc'⟩
          · intro x' y' hl hn
            rcases List.mem_cons.1 hl with he | hl
            · cases he
              exact hlt
            · exact h2 x' y' hl hn

theorem board_ok {nCols nRows d : ℕ} {size sp : ℝ} {codes : List ℕ} {ids : List ℕ} {page : List Rect}
    (h : aprilBoard nCols nRows size sp d codes (some ids) = .ok page) :
    (0 ≤ sp ∧ sp ≤ 1) ∧ drawTags nCols (size * 100) sp d codes (some ids) (places nCols nRows) = .ok page := by
  unfold aprilBoard at h
  split at h
  · simp at h
  · next hn =>
    push Not at hn
    exact ⟨hn, h⟩

/-- **C182**: on every printed board the cell in column `j` from the left and row `r` from below of each tag that is not
skipped is black exactly if bit `d * r + (d - 1 - j)` of its code is not set, no matter what its neighbours are. -/
theorem C182_cells (nCols nRows d : ℕ) (size sp : ℝ) (codes ids : List ℕ) (page : List Rect) (hz : 0 < size)
    (h : aprilBoard nCols nRows size sp d codes (some ids) = .ok page) (x y : ℕ) (hx : x < nCols) (hy : y < nRows)
    (hid : nCols * y + x ∉ ids) (j r : ℕ) (hj : j < d) (hr : r < d) :
    Black page (cell (100 * size) sp d 2 x y j r) ↔
      (codes.getD (nCols * y + x) 0).testBit (d * r + (d - 1 - j)) = false := by
  obtain ⟨⟨hs, _⟩, hd⟩ := board_ok h
  rw [mul_comm size 100] at hd
  rw [(drawTags_black _ _ _ hd).1]
  constructor
  · rintro ⟨x', y', _, _, hb⟩
    obtain ⟨⟨rfl, rfl⟩, hc⟩ := (tag_covers (by linarith) hs hj hr).1 hb
    exact hc
  · intro hc
    exact ⟨x, y, mem_places.2 ⟨hx, hy⟩, hid, (tag_covers (by linarith) hs hj hr).2 ⟨⟨rfl, rfl⟩, hc⟩⟩

/-- **C182**: a board is printed exactly if the spacing is between zero and one and the family has a code for each tag
that is not skipped. -/
theorem C182_printable (nCols nRows d : ℕ) (size sp : ℝ) (codes ids : List ℕ) :
    (∃ page, aprilBoard nCols nRows size sp d codes (some ids) = .ok page) ↔
      (0 ≤ sp ∧ sp ≤ 1) ∧ ∀ x y, x < nCols → y < nRows → nCols * y + x ∉ ids → nCols * y + x < codes.length := by
  constructor
  · rintro ⟨page, h⟩
    obtain ⟨hs, hd⟩ := board_ok h
    exact ⟨hs, fun x y hx hy hn => (drawTags_black (0, 0) _ _ hd).2 x y (mem_places.2 ⟨hx, hy⟩) hn⟩
  · rintro ⟨⟨h0, h1⟩, hc⟩
    have hn : ¬ (sp < 0 ∨ sp > 1) := by push Not; exact ⟨h0, h1⟩
    have key : ∀ l : List (ℕ × ℕ), (∀ x y, (x, y) ∈ l → nCols * y + x ∉ ids → nCols * y + x < codes.length) →
        ∃ page, drawTags nCols (size * 100) sp d codes (some ids) l = .ok page := by
      intro l
      induction l with
      | nil => intro _; exact ⟨[], rfl⟩
      | cons a l ih =>
        obtain ⟨x, y⟩ := a
        intro hl
        obtain ⟨page, hp⟩ := ih fun x y h => hl x y (List.mem_cons_of_mem _ h)
        by_cases hm : nCols * y + x ∈ ids
        · exact ⟨page, by simp only [drawTags]; rw [if_pos hm]; exact hp⟩
        · have hlt := hl x y List.mem_cons_self hm
          refine ⟨tag (x * (1 + sp) * (size * 100)) (y * (1 + sp) * (size * 100)) (size * 100) sp d 2
            codes[nCols * y + x] ++ page, ?_⟩
          simp only [drawTags]
          rw [if_neg hm, List.getElem?_eq_getElem hlt]
          simp only [hp, Out.bind]
    obtain ⟨page, hp⟩ := key (places nCols nRows) fun x y h => by
      obtain ⟨hx, hy⟩ := mem_places.1 h
      exact hc x y hx hy
    exact ⟨page, by unfold aprilBoard; rw [if_neg hn]; exact hp⟩

/-- **C182**: called without the identifiers to skip, which it declares optional, the generator prints no board. -/
theorem C182_default_counterexample (nCols nRows d : ℕ) (size sp : ℝ) (codes : List ℕ) (hx : 0 < nCols)
    (hy : 0 < nRows) : aprilBoard nCols nRows size sp d codes none = .raise := by
  unfold aprilBoard
  split
  · rfl
  · cases hp : places nCols nRows with
    | nil =>
      have := mem_places.2 ⟨hx, hy⟩
      rw [hp] at this
      simp at this
    | cons a l => obtain ⟨x, y⟩ := a; rfl

/-- **C182**: tags without gaps are printed, but the detector's target refuses them. -/
theorem C182_no_gap_counterexample (mem : List P3) :
    (∃ page, aprilBoard 6 6 (8 / 100) 0 6 printed36h11 (some []) = .ok page) ∧
      Target.aprilgrid 6 6 (8 / 100) 0 mem = .raise := by
  constructor
  · refine (C182_printable 6 6 6 _ 0 printed36h11 []).2 ⟨⟨le_refl 0, by norm_num⟩, fun x y hx hy _ => ?_⟩
    have : printed36h11.length = 587 := by decide +kernel
    omega
  · norm_num [Target.aprilgrid]

/-- **C182**: the printed codes are those of the detector. -/
theorem C182_table : printed36h11 = Tag.t36h11 := by decide +kernel

end Kalibr.Printed
