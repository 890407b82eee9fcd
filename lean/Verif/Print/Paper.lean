import Verif.Print.Model
import Verif.Target.GridProps
import Verif.Tactics

/-!
# What is black on the printed board
-/

namespace Kalibr.Print

open Kalibr.Target (P2 foldlM_range_inv)

/-! ## The board as a set of tags -/

theorem drawTag_ok {codes : List ℕ} {d cols : ℕ} {t s : ℝ} {skip : List ℕ} {y x : ℕ} {rs : List Rect}
    (h : cols * y + x ∉ skip → cols * y + x < codes.length) :
    ∃ rs', drawTag codes d cols t s skip y rs x = .ok rs' ∧ ∀ r, r ∈ rs' ↔ r ∈ rs ∨
      (cols * y + x ∉ skip ∧ r ∈ tagRects d 2 2 (codes.getD (cols * y + x) 0) (x * (1 + s) * t)
        (y * (1 + s) * t) t s) := by
  by_cases hs : cols * y + x ∈ skip
  · exact ⟨rs, by simp [drawTag, hs], by simp [hs]⟩
  · have hl := h hs
    refine ⟨_, by simp [drawTag, hs, hl]; rfl, ?_⟩
    intro r
    simp [hs, hl]

/-- The board is drawn when the spacing is allowed and every tag has a code; it consists of the
rectangles of its tags. -/
theorem boardRects_ok {codes : List ℕ} {d cols rows : ℕ} {a s : ℝ} {skip : List ℕ} (h0 : 0 ≤ s)
    (h1 : s ≤ 1)
    (h : ∀ y, y < rows → ∀ x, x < cols → cols * y + x ∉ skip → cols * y + x < codes.length) :
    ∃ rs, boardRects codes d cols rows a s skip = .ok rs ∧ ∀ r, r ∈ rs ↔
      ∃ y, y < rows ∧ ∃ x, x < cols ∧ cols * y + x ∉ skip ∧
        r ∈ tagRects d 2 2 (codes.getD (cols * y + x) 0) (x * (1 + s) * (a * 100))
          (y * (1 + s) * (a * 100)) (a * 100) s := by
  have hsp : ¬ (s < 0 ∨ s > 1) := by push Not; exact ⟨h0, h1⟩
  rw [boardRects, if_neg hsp]
  refine foldlM_range_inv (P := fun n (rs : List Rect) => ∀ r, r ∈ rs ↔
      ∃ y, y < n ∧ ∃ x, x < cols ∧ cols * y + x ∉ skip ∧
        r ∈ tagRects d 2 2 (codes.getD (cols * y + x) 0) (x * (1 + s) * (a * 100))
          (y * (1 + s) * (a * 100)) (a * 100) s) (by simp) ?_
  intro y hy rs hP
  obtain ⟨rs', h1, h2⟩ := foldlM_range_inv (n := cols) (s := rs)
    (f := drawTag codes d cols (a * 100) s skip y)
    (P := fun n (rs' : List Rect) => ∀ r, r ∈ rs' ↔ r ∈ rs ∨ ∃ x, x < n ∧ cols * y + x ∉ skip ∧
        r ∈ tagRects d 2 2 (codes.getD (cols * y + x) 0) (x * (1 + s) * (a * 100))
          (y * (1 + s) * (a * 100)) (a * 100) s) (by simp) (by
      intro x hx rs1 h1
      obtain ⟨rs2, h2, h3⟩ := drawTag_ok (d := d) (t := a * 100) (s := s) (rs := rs1) (h y hy x hx)
      refine ⟨rs2, h2, fun r => ?_⟩
      rw [h3, h1]
      constructor
      · rintro ((h | ⟨x', hx', h⟩) | h)
        · exact Or.inl h
        · exact Or.inr ⟨x', by omega, h⟩
        · exact Or.inr ⟨x, by omega, h⟩
      · rintro (h | ⟨x', hx', h⟩)
        · exact Or.inl (Or.inl h)
        · by_cases he : x' = x
          · subst he; exact Or.inr h
          · exact Or.inl (Or.inr ⟨x', by omega, h⟩))
  refine ⟨rs', h1, fun r => ?_⟩
  rw [h2, hP]
  constructor
  · rintro (⟨y', hy', h⟩ | h)
    · exact ⟨y', by omega, h⟩
    · exact ⟨y, by omega, h⟩
  · rintro ⟨y', hy', h⟩
    by_cases he : y' = y
    · subst he; exact Or.inr h
    · exact Or.inl ⟨y', by omega, h⟩

theorem foldlM_range_ok {σ : Type} {f : σ → ℕ → Out σ} {n : ℕ} {s s' : σ}
    (h : (List.range n).foldlM f s = .ok s') : ∀ i, i < n → ∃ s1 s2, f s1 i = .ok s2 := by
  induction n generalizing s' with
  | zero => intro i hi; omega
  | succ n ih =>
    rw [List.range_succ, List.foldlM_append] at h
    obtain ⟨s1, h1, h2⟩ := Out.bind_eq_ok.mp h
    intro i hi
    by_cases he : i = n
    · subst he
      simp only [List.foldlM_cons, List.foldlM_nil] at h2
      obtain ⟨s2, h3, _⟩ := Out.bind_eq_ok.mp h2
      exact ⟨s1, s2, h3⟩
    · exact ih h1 i (by omega)

/-- A board that is drawn has a code for each of its tags. -/
theorem boardRects_some {codes : List ℕ} {d cols rows : ℕ} {a s : ℝ} {skip : List ℕ} {rs : List Rect}
    (h : boardRects codes d cols rows a s skip = .ok rs) :
    0 ≤ s ∧ s ≤ 1 ∧
      ∀ y, y < rows → ∀ x, x < cols → cols * y + x ∉ skip → cols * y + x < codes.length := by
  unfold boardRects at h
  by_cases hsp : s < 0 ∨ s > 1
  · rw [if_pos hsp] at h; cases h
  · rw [if_neg hsp] at h
    push Not at hsp
    refine ⟨hsp.1, hsp.2, fun y hy x hx hn => ?_⟩
    obtain ⟨s1, s2, h1⟩ := foldlM_range_ok h y hy
    obtain ⟨s3, s4, h2⟩ := foldlM_range_ok h1 x hx
    by_contra hl
    have hnone : codes[cols * y + x]? = none := List.getElem?_eq_none (by omega)
    rw [drawTag] at h2
    simp only [if_neg hn, hnone] at h2
    cases h2

/-- **C133**: the board is drawn exactly when the spacing is between zero and one and the family has a
code for every tag that is not left blank. -/
theorem C133_drawn (codes : List ℕ) (d cols rows : ℕ) (a s : ℝ) (skip : List ℕ) :
    (∃ rs, boardRects codes d cols rows a s skip = .ok rs) ↔ 0 ≤ s ∧ s ≤ 1 ∧
      ∀ y, y < rows → ∀ x, x < cols → cols * y + x ∉ skip → cols * y + x < codes.length := by
  constructor
  · rintro ⟨rs, h⟩; exact boardRects_some h
  · rintro ⟨h0, h1, h⟩
    obtain ⟨rs, hr, _⟩ := boardRects_ok (d := d) (a := a) h0 h1 h
    exact ⟨rs, hr⟩

/-! ## Rectangles in units of the tag size -/

theorem covers_norm {t : ℝ} (ht : 0 < t) (X Y X' Y' s a b w h u v : ℝ) :
    Rect.Covers ⟨X' * (1 + s) * t + t * a, Y' * (1 + s) * t + t * b, t * w, t * h⟩
        (X * (1 + s) * t + t * u, Y * (1 + s) * t + t * v) ↔
      (X' - X) * (1 + s) + a ≤ u ∧ u ≤ (X' - X) * (1 + s) + a + w ∧
      (Y' - Y) * (1 + s) + b ≤ v ∧ v ≤ (Y' - Y) * (1 + s) + b + h := by
  have key : ∀ x y : ℝ, t * x ≤ t * y ↔ x ≤ y := fun x y => mul_le_mul_iff_right₀ ht
  unfold Rect.Covers
  simp only
  refine and_congr ?_ (and_congr ?_ (and_congr ?_ ?_))
  · rw [← key ((X' - X) * (1 + s) + a) u]; constructor <;> intro h <;> linarith
  · rw [← key u]; constructor <;> intro h <;> linarith
  · rw [← key ((Y' - Y) * (1 + s) + b) v]; constructor <;> intro h <;> linarith
  · rw [← key v]; constructor <;> intro h <;> linarith

theorem black_append (l l' : List Rect) (p : P2) : Black (l ++ l') p ↔ Black l p ∨ Black l' p := by
  simp only [Black, List.mem_append]
  constructor
  · rintro ⟨r, h | h, hc⟩
    · exact Or.inl ⟨r, h, hc⟩
    · exact Or.inr ⟨r, h, hc⟩
  · rintro (⟨r, h, hc⟩ | ⟨r, h, hc⟩)
    · exact ⟨r, Or.inl h, hc⟩
    · exact ⟨r, Or.inr h, hc⟩

theorem rot90n_two {d : ℕ} (m : ℕ → ℕ → Bool) (i j : ℕ) : rot90n d m 2 i j = m (d - 1 - i) (d - 1 - j) := rfl

theorem four (A B C D E F G H : Prop) :
    (A ∧ B ∧ E ∧ F) ∨ (C ∧ D ∧ E ∧ F) ∨ (C ∧ D ∧ G ∧ H) ∨ (A ∧ B ∧ G ∧ H) ↔
      ((A ∧ B) ∨ (C ∧ D)) ∧ ((E ∧ F) ∨ (G ∧ H)) := by
  constructor
  · rintro (⟨a, b, e, f⟩ | ⟨a, b, e, f⟩ | ⟨a, b, e, f⟩ | ⟨a, b, e, f⟩)
    · exact ⟨Or.inl ⟨a, b⟩, Or.inl ⟨e, f⟩⟩
    · exact ⟨Or.inr ⟨a, b⟩, Or.inl ⟨e, f⟩⟩
    · exact ⟨Or.inr ⟨a, b⟩, Or.inr ⟨e, f⟩⟩
    · exact ⟨Or.inl ⟨a, b⟩, Or.inr ⟨e, f⟩⟩
  · rintro ⟨⟨a, b⟩ | ⟨a, b⟩, ⟨e, f⟩ | ⟨e, f⟩⟩
    · exact Or.inl ⟨a, b, e, f⟩
    · exact Or.inr (Or.inr (Or.inr ⟨a, b, e, f⟩))
    · exact Or.inr (Or.inl ⟨a, b, e, f⟩)
    · exact Or.inr (Or.inr (Or.inl ⟨a, b, e, f⟩))

set_option maxHeartbeats 1000000 in
/-- The black points of one tag, in units of its size, relative to another tag. -/
theorem black_tag {t : ℝ} (ht : 0 < t) (d border code : ℕ) (hd : 0 < 2 * border + d)
    (X Y X' Y' s u v : ℝ) :
    Black (tagRects d border 2 code (X' * (1 + s) * t) (Y' * (1 + s) * t) t s)
        (X * (1 + s) * t + t * u, Y * (1 + s) * t + t * v) ↔
      ((X' - X) * (1 + s) ≤ u ∧ u ≤ (X' - X) * (1 + s) + 1 ∧ (Y' - Y) * (1 + s) ≤ v ∧
        v ≤ (Y' - Y) * (1 + s) + border / (2 * border + d : ℕ)) ∨
      ((X' - X) * (1 + s) ≤ u ∧ u ≤ (X' - X) * (1 + s) + 1 ∧
        (Y' - Y) * (1 + s) + 1 - border / (2 * border + d : ℕ) ≤ v ∧ v ≤ (Y' - Y) * (1 + s) + 1) ∨
      ((X' - X) * (1 + s) + 1 - border / (2 * border + d : ℕ) ≤ u ∧ u ≤ (X' - X) * (1 + s) + 1 ∧
        (Y' - Y) * (1 + s) ≤ v ∧ v ≤ (Y' - Y) * (1 + s) + 1) ∨
      ((X' - X) * (1 + s) ≤ u ∧ u ≤ (X' - X) * (1 + s) + border / (2 * border + d : ℕ) ∧
        (Y' - Y) * (1 + s) ≤ v ∧ v ≤ (Y' - Y) * (1 + s) + 1) ∨
      (∃ i j, i < d ∧ j < d ∧ code.testBit (d * (d - 1 - i) + (d - 1 - j)) = false ∧
        (X' - X) * (1 + s) + (j + border) / (2 * border + d : ℕ) ≤ u ∧
        u ≤ (X' - X) * (1 + s) + (j + border + 1) / (2 * border + d : ℕ) ∧
        (Y' - Y) * (1 + s) + (border - 1 + d - i) / (2 * border + d : ℕ) ≤ v ∧
        v ≤ (Y' - Y) * (1 + s) + (border + d - i) / (2 * border + d : ℕ)) ∨
      (((X' - X) * (1 + s) - s ≤ u ∧ u ≤ (X' - X) * (1 + s)) ∨
        ((X' - X) * (1 + s) + 1 ≤ u ∧ u ≤ (X' - X) * (1 + s) + 1 + s)) ∧
      (((Y' - Y) * (1 + s) - s ≤ v ∧ v ≤ (Y' - Y) * (1 + s)) ∨
        ((Y' - Y) * (1 + s) + 1 ≤ v ∧ v ≤ (Y' - Y) * (1 + s) + 1 + s)) := by
  obtain ⟨D, hD⟩ : ∃ D : ℝ, D = ((2 * border + d : ℕ) : ℝ) := ⟨_, rfl⟩
  have hDpos : 0 < D := by rw [hD]; exact_mod_cast hd
  have hbit : t / ((d : ℝ) + border * 2) = t * (1 / D) := by
    rw [hD]; push_cast; rw [mul_one_div]; congr 1; ring
  rw [← hD]
  have hc := covers_norm ht X Y X' Y' s
  have mk : ∀ x y w h x' y' w' h' : ℝ, x = x' → y = y' → w = w' → h = h' →
      Rect.mk x y w h = Rect.mk x' y' w' h' := by rintro _ _ _ _ _ _ _ _ rfl rfl rfl rfl; rfl
  rw [tagRects]
  simp only [black_append, hbit]
  obtain ⟨k, hk⟩ : ∃ k : ℝ, k = (X' - X) * (1 + s) := ⟨_, rfl⟩
  obtain ⟨l, hl⟩ : ∃ l : ℝ, l = (Y' - Y) * (1 + s) := ⟨_, rfl⟩
  have hB : Black (borderRects (X' * (1 + s) * t) (Y' * (1 + s) * t) t (border * (t * (1 / D))))
      (X * (1 + s) * t + t * u, Y * (1 + s) * t + t * v) ↔
      (k ≤ u ∧ u ≤ k + 1 ∧ l ≤ v ∧ v ≤ l + border / D) ∨
      (k ≤ u ∧ u ≤ k + 1 ∧ l + 1 - border / D ≤ v ∧ v ≤ l + 1) ∨
      (k + 1 - border / D ≤ u ∧ u ≤ k + 1 ∧ l ≤ v ∧ v ≤ l + 1) ∨
      (k ≤ u ∧ u ≤ k + border / D ∧ l ≤ v ∧ v ≤ l + 1) := by
    simp only [Black, borderRects, List.mem_cons, List.not_mem_nil, or_false, exists_eq_or_imp,
      exists_eq_left]
    rw [mk _ _ _ _ (X' * (1 + s) * t + t * 0) (Y' * (1 + s) * t + t * 0) (t * 1) (t * (border / D))
        (by ring) (by ring) (by ring) (by ring), hc,
      mk _ (Y' * (1 + s) * t + t - border * (t * (1 / D))) _ _ (X' * (1 + s) * t + t * 0)
        (Y' * (1 + s) * t + t * (1 - border / D)) (t * 1) (t * (border / D))
        (by ring) (by ring) (by ring) (by ring), hc,
      mk (X' * (1 + s) * t + t - border * (t * (1 / D))) _ _ _
        (X' * (1 + s) * t + t * (1 - border / D)) (Y' * (1 + s) * t + t * 0) (t * (border / D)) (t * 1)
        (by ring) (by ring) (by ring) (by ring), hc,
      mk _ _ _ _ (X' * (1 + s) * t + t * 0) (Y' * (1 + s) * t + t * 0) (t * (border / D)) (t * 1)
        (by ring) (by ring) (by ring) (by ring), hc, ← hk, ← hl]
    refine or_congr ?_ (or_congr ?_ (or_congr ?_ ?_)) <;>
      exact and_congr (by constructor <;> intro h <;> linarith)
        (and_congr (by constructor <;> intro h <;> linarith)
        (and_congr (by constructor <;> intro h <;> linarith) (by constructor <;> intro h <;> linarith)))
  have hK : Black (cornerRects (X' * (1 + s) * t) (Y' * (1 + s) * t) t (s * t))
      (X * (1 + s) * t + t * u, Y * (1 + s) * t + t * v) ↔
      ((k - s ≤ u ∧ u ≤ k) ∨ (k + 1 ≤ u ∧ u ≤ k + 1 + s)) ∧
      ((l - s ≤ v ∧ v ≤ l) ∨ (l + 1 ≤ v ∧ v ≤ l + 1 + s)) := by
    simp only [Black, cornerRects, List.mem_cons, List.not_mem_nil, or_false, exists_eq_or_imp,
      exists_eq_left]
    rw [mk (X' * (1 + s) * t - s * t) (Y' * (1 + s) * t - s * t) _ _ (X' * (1 + s) * t + t * (-s))
        (Y' * (1 + s) * t + t * (-s)) (t * s) (t * s) (by ring) (by ring) (by ring) (by ring), hc,
      mk (X' * (1 + s) * t + t) (Y' * (1 + s) * t - s * t) _ _ (X' * (1 + s) * t + t * 1)
        (Y' * (1 + s) * t + t * (-s)) (t * s) (t * s) (by ring) (by ring) (by ring) (by ring), hc,
      mk (X' * (1 + s) * t + t) (Y' * (1 + s) * t + t) _ _ (X' * (1 + s) * t + t * 1)
        (Y' * (1 + s) * t + t * 1) (t * s) (t * s) (by ring) (by ring) (by ring) (by ring), hc,
      mk (X' * (1 + s) * t - s * t) (Y' * (1 + s) * t + t) _ _ (X' * (1 + s) * t + t * (-s))
        (Y' * (1 + s) * t + t * 1) (t * s) (t * s) (by ring) (by ring) (by ring) (by ring), hc,
      ← hk, ← hl]
    simp only [← sub_eq_add_neg, sub_add_cancel]
    exact four _ _ _ _ _ _ _ _
  have hC : Black (cellRects d border (rot90n d (codeMatrix d code) 2) (X' * (1 + s) * t)
      (Y' * (1 + s) * t) (t * (1 / D))) (X * (1 + s) * t + t * u, Y * (1 + s) * t + t * v) ↔
      (∃ i j, i < d ∧ j < d ∧ code.testBit (d * (d - 1 - i) + (d - 1 - j)) = false ∧
        k + (j + border) / D ≤ u ∧ u ≤ k + (j + border + 1) / D ∧
        l + (border - 1 + d - i) / D ≤ v ∧ v ≤ l + (border + d - i) / D) := by
    have hcell : ∀ i j : ℕ, Rect.Covers ⟨X' * (1 + s) * t + ((j : ℝ) + border) * (t * (1 / D)),
        Y' * (1 + s) * t + (((border : ℝ) - 1) + d - i) * (t * (1 / D)), t * (1 / D), t * (1 / D)⟩
        (X * (1 + s) * t + t * u, Y * (1 + s) * t + t * v) ↔
        k + (j + border) / D ≤ u ∧ u ≤ k + (j + border + 1) / D ∧
        l + (border - 1 + d - i) / D ≤ v ∧ v ≤ l + (border + d - i) / D := by
      intro i j
      rw [mk _ _ _ _ (X' * (1 + s) * t + t * ((j + border) / D))
        (Y' * (1 + s) * t + t * ((border - 1 + d - i) / D)) (t * (1 / D)) (t * (1 / D))
        (by ring) (by ring) (by ring) (by ring), hc, ← hk, ← hl]
      have e1 : ((j : ℝ) + border + 1) / D = (j + border) / D + 1 / D := by ring
      have e2 : ((border : ℝ) + d - i) / D = (border - 1 + d - i) / D + 1 / D := by ring
      rw [e1, e2, ← add_assoc, ← add_assoc]
    simp only [Black, cellRects, List.mem_flatMap, List.mem_range, List.mem_filterMap]
    constructor
    · rintro ⟨r, ⟨i, hi, j, hj, h⟩, hcov⟩
      by_cases hm : rot90n d (codeMatrix d code) 2 i j = true
      · rw [if_pos hm] at h
        injection h with h
        subst h
        refine ⟨i, j, hi, hj, ?_, (hcell i j).mp hcov⟩
        rw [rot90n_two, codeMatrix] at hm
        simpa using hm
      · rw [if_neg hm] at h; cases h
    · rintro ⟨i, j, hi, hj, hb, h⟩
      refine ⟨_, ⟨i, hi, j, hj, ?_⟩, (hcell i j).mpr h⟩
      rw [if_pos]
      rw [rot90n_two, codeMatrix]
      simpa using hb
  rw [hB, hC, hK, ← hk, ← hl]
  simp only [or_assoc]

/-! ## The centres of the cells -/

/-- Centre of the cell in column `ix`, row `iy` of the tag in column `X`, row `Y` of the board, counted
from the lower left corner; `-1` and `dd` are the cells just outside the tag. -/
noncomputable def centre (t s : ℝ) (dd X Y : ℕ) (ix iy : ℤ) : P2 :=
  (X * (1 + s) * t + t * ((ix + 1 / 2) / dd), Y * (1 + s) * t + t * ((iy + 1 / 2) / dd))

/-- The cells that should be black: the cells diagonal to the corners of the tag, the border, and the
cells whose bit is zero. -/
def CellBlack (d border code : ℕ) (ix iy : ℤ) : Prop :=
  ((ix = -1 ∨ ix = (2 * border + d : ℕ)) ∧ (iy = -1 ∨ iy = (2 * border + d : ℕ))) ∨
  (0 ≤ ix ∧ ix < (2 * border + d : ℕ) ∧ 0 ≤ iy ∧ iy < (2 * border + d : ℕ) ∧
    (ix < border ∨ (border + d : ℕ) ≤ ix ∨ iy < border ∨ (border + d : ℕ) ≤ iy ∨
      code.testBit (d * (iy - border).toNat + (d - 1 - (ix - border).toNat)) = false))

section
variable {s : ℝ} {dd : ℕ}

theorem tag_int (hdd : 0 < dd) (hs : 1 / (2 * (dd : ℝ)) < s) (K ix : ℤ) (h1 : -1 ≤ ix) (h2 : ix ≤ dd)
    (ha : (K : ℝ) * (1 + s) ≤ ((ix : ℝ) + 1 / 2) / dd) (hb : ((ix : ℝ) + 1 / 2) / dd ≤ K * (1 + s) + 1) :
    K = 0 ∧ 0 ≤ ix ∧ ix < dd := by
  have hD : (0 : ℝ) < dd := by exact_mod_cast hdd
  have h1' : (-1 : ℝ) ≤ ix := by exact_mod_cast h1
  have h2' : (ix : ℝ) ≤ dd := by exact_mod_cast h2
  have hs' : 1 / 2 < s * dd := by
    rw [div_lt_iff₀ (by positivity)] at hs; linarith
  have hs0 : 0 < s := lt_trans (by positivity) hs
  rw [le_div_iff₀ hD] at ha
  rw [div_le_iff₀ hD] at hb
  have hK : K = 0 := by
    rcases lt_trichotomy K 0 with hK | hK | hK
    · exfalso
      have : (K : ℝ) ≤ -1 := by exact_mod_cast Int.le_sub_one_of_lt hK
      have h3 : (K : ℝ) * ((1 + s) * dd) ≤ -1 * ((1 + s) * dd) :=
        mul_le_mul_of_nonneg_right this (by positivity)
      linarith
    · exact hK
    · exfalso
      have : (1 : ℝ) ≤ K := by exact_mod_cast hK
      have h3 : 1 * ((1 + s) * dd) ≤ (K : ℝ) * ((1 + s) * dd) :=
        mul_le_mul_of_nonneg_right this (by positivity)
      linarith
  subst hK
  refine ⟨rfl, ?_, ?_⟩
  · by_contra h
    have : (ix : ℝ) ≤ -1 := by exact_mod_cast (by omega : ix ≤ -1)
    simp at ha; linarith
  · by_contra h
    have : (dd : ℝ) ≤ ix := by exact_mod_cast (by omega : (dd : ℤ) ≤ ix)
    simp at hb; linarith

theorem gap_int (hdd : 0 < dd) (hs0 : 0 ≤ s) (K ix : ℤ) (h1 : -1 ≤ ix) (h2 : ix ≤ dd)
    (h : ((K : ℝ) * (1 + s) - s ≤ ((ix : ℝ) + 1 / 2) / dd ∧ ((ix : ℝ) + 1 / 2) / dd ≤ K * (1 + s)) ∨
      ((K : ℝ) * (1 + s) + 1 ≤ ((ix : ℝ) + 1 / 2) / dd ∧ ((ix : ℝ) + 1 / 2) / dd ≤ K * (1 + s) + 1 + s)) :
    ix = -1 ∨ ix = dd := by
  by_contra hne
  have hD : (0 : ℝ) < dd := by exact_mod_cast hdd
  have h0 : (0 : ℝ) ≤ ix := by exact_mod_cast (by omega : (0 : ℤ) ≤ ix)
  have hl : (ix : ℝ) + 1 ≤ dd := by exact_mod_cast (by omega : ix + 1 ≤ (dd : ℤ))
  have u0 : 0 < ((ix : ℝ) + 1 / 2) / dd := by positivity
  have u1 : ((ix : ℝ) + 1 / 2) / dd < 1 := by rw [div_lt_one hD]; linarith
  rcases h with ⟨ha, hb⟩ | ⟨ha, hb⟩
  · rcases le_or_gt K 0 with hK | hK
    · have : (K : ℝ) ≤ 0 := by exact_mod_cast hK
      have : (K : ℝ) * (1 + s) ≤ 0 := mul_nonpos_of_nonpos_of_nonneg this (by linarith)
      linarith
    · have : (1 : ℝ) ≤ K := by exact_mod_cast hK
      have := mul_le_mul_of_nonneg_right this (by linarith : 0 ≤ 1 + s)
      linarith
  · rcases lt_or_ge K 0 with hK | hK
    · have : (K : ℝ) ≤ -1 := by exact_mod_cast Int.le_sub_one_of_lt hK
      have := mul_le_mul_of_nonneg_right this (by linarith : 0 ≤ 1 + s)
      linarith
    · have : (0 : ℝ) ≤ K := by exact_mod_cast hK
      have : 0 ≤ (K : ℝ) * (1 + s) := mul_nonneg this (by linarith)
      linarith
end

/-- The colour of the centre of every cell of a tag, and of the cells around it, whatever other tags
are on the board. -/
theorem board_cell {codes : List ℕ} {d cols rows : ℕ} {t s : ℝ} {skip : List ℕ} {rs : List Rect}
    (ht : 0 < t) (hs : 1 / (2 * ((2 * 2 + d : ℕ) : ℝ)) < s)
    (hrs : ∀ r, r ∈ rs ↔ ∃ y, y < rows ∧ ∃ x, x < cols ∧ cols * y + x ∉ skip ∧
        r ∈ tagRects d 2 2 (codes.getD (cols * y + x) 0) (x * (1 + s) * t) (y * (1 + s) * t) t s)
    {X Y : ℕ} (hX : X < cols) (hY : Y < rows) (hid : cols * Y + X ∉ skip) (ix iy : ℤ)
    (hx1 : -1 ≤ ix) (hx2 : ix ≤ (2 * 2 + d : ℕ)) (hy1 : -1 ≤ iy) (hy2 : iy ≤ (2 * 2 + d : ℕ)) :
    Black rs (centre t s (2 * 2 + d) X Y ix iy) ↔ CellBlack d 2 (codes.getD (cols * Y + X) 0) ix iy := by
  have hdd : 0 < 2 * 2 + d := by omega
  have hD : (0 : ℝ) < ((2 * 2 + d : ℕ) : ℝ) := by exact_mod_cast hdd
  have hs0 : 0 < s := lt_trans (by positivity) hs
  have hB : Black rs (centre t s (2 * 2 + d) X Y ix iy) ↔ ∃ y, y < rows ∧ ∃ x, x < cols ∧
      cols * y + x ∉ skip ∧ Black (tagRects d 2 2 (codes.getD (cols * y + x) 0) (x * (1 + s) * t)
        (y * (1 + s) * t) t s) (centre t s (2 * 2 + d) X Y ix iy) := by
    constructor
    · rintro ⟨r, hr, hc⟩
      obtain ⟨y, hy, x, hx, hn, h⟩ := (hrs r).mp hr
      exact ⟨y, hy, x, hx, hn, r, h, hc⟩
    · rintro ⟨y, hy, x, hx, hn, r, h, hc⟩
      exact ⟨r, (hrs r).mpr ⟨y, hy, x, hx, hn, h⟩, hc⟩
  rw [hB]
  clear hB hrs
  have cast : ∀ a b : ℕ, (a : ℝ) - b = (((a : ℤ) - b : ℤ) : ℝ) := by intro a b; push_cast; ring
  constructor
  · rintro ⟨y, hy, x, hx, hn, h⟩
    unfold centre at h
    rw [black_tag ht d 2 _ hdd] at h
    rw [cast x X, cast y Y] at h
    obtain ⟨K, hK⟩ : ∃ K : ℤ, K = (x : ℤ) - X := ⟨_, rfl⟩
    obtain ⟨L, hL⟩ : ∃ L : ℤ, L = (y : ℤ) - Y := ⟨_, rfl⟩
    rw [← hK, ← hL] at h
    have b0 : (0 : ℝ) ≤ ((2 : ℕ) : ℝ) / ((2 * 2 + d : ℕ) : ℝ) := by positivity
    have b1 : ((2 : ℕ) : ℝ) / ((2 * 2 + d : ℕ) : ℝ) ≤ 1 := by
      rw [div_le_one hD]; exact_mod_cast (by omega : 2 ≤ 2 * 2 + d)
    -- inside the tag
    have inside : ((K : ℝ) * (1 + s) ≤ ((ix : ℝ) + 1 / 2) / ((2 * 2 + d : ℕ) : ℝ) ∧
        ((ix : ℝ) + 1 / 2) / ((2 * 2 + d : ℕ) : ℝ) ≤ K * (1 + s) + 1) →
        ((L : ℝ) * (1 + s) ≤ ((iy : ℝ) + 1 / 2) / ((2 * 2 + d : ℕ) : ℝ) ∧
        ((iy : ℝ) + 1 / 2) / ((2 * 2 + d : ℕ) : ℝ) ≤ L * (1 + s) + 1) →
        K = 0 ∧ L = 0 ∧ 0 ≤ ix ∧ ix < (2 * 2 + d : ℕ) ∧ 0 ≤ iy ∧ iy < (2 * 2 + d : ℕ) := by
      rintro ⟨p1, p2⟩ ⟨p3, p4⟩
      obtain ⟨q1, q2, q3⟩ := tag_int hdd hs K ix hx1 hx2 p1 p2
      obtain ⟨q4, q5, q6⟩ := tag_int hdd hs L iy hy1 hy2 p3 p4
      exact ⟨q1, q4, q2, q3, q5, q6⟩
    have toInt : ∀ a b : ℤ, ((a : ℝ) + 1 / 2) / ((2 * 2 + d : ℕ) : ℝ) ≤ (b : ℝ) / ((2 * 2 + d : ℕ) : ℝ) → a < b := by
      intro a b h
      rw [div_le_div_iff_of_pos_right hD] at h
      have : (a : ℝ) < b := by linarith
      exact_mod_cast this
    have toInt' : ∀ a b : ℤ, (b : ℝ) / ((2 * 2 + d : ℕ) : ℝ) ≤ ((a : ℝ) + 1 / 2) / ((2 * 2 + d : ℕ) : ℝ) → b ≤ a := by
      intro a b h
      rw [div_le_div_iff_of_pos_right hD] at h
      have : (b : ℝ) < a + 1 := by linarith
      have h' : b < a + 1 := by exact_mod_cast this
      omega
    have one : (1 : ℝ) - ((2 : ℕ) : ℝ) / ((2 * 2 + d : ℕ) : ℝ) =
        (((2 + d : ℕ) : ℤ) : ℝ) / ((2 * 2 + d : ℕ) : ℝ) := by
      rw [eq_div_iff (ne_of_gt hD), sub_mul, div_mul_cancel₀ _ (ne_of_gt hD)]; push_cast; ring
    rcases h with ⟨p1, p2, p3, p4⟩ | ⟨p1, p2, p3, p4⟩ | ⟨p1, p2, p3, p4⟩ | ⟨p1, p2, p3, p4⟩ |
      ⟨i, j, hi, hj, hb, p1, p2, p3, p4⟩ | ⟨p1, p2⟩
    · obtain ⟨k0, l0, i1, i2, i3, i4⟩ := inside ⟨p1, p2⟩ ⟨p3, by linarith⟩
      subst k0 l0
      refine Or.inr ⟨i1, i2, i3, i4, Or.inr (Or.inr (Or.inl ?_))⟩
      exact toInt iy 2 (by simpa using p4)
    · obtain ⟨k0, l0, i1, i2, i3, i4⟩ := inside ⟨p1, p2⟩ ⟨by linarith, p4⟩
      subst k0 l0
      refine Or.inr ⟨i1, i2, i3, i4, Or.inr (Or.inr (Or.inr (Or.inl ?_)))⟩
      refine toInt' iy _ ?_
      rw [← one]; simpa using p3
    · obtain ⟨k0, l0, i1, i2, i3, i4⟩ := inside ⟨by linarith, p2⟩ ⟨p3, p4⟩
      subst k0 l0
      refine Or.inr ⟨i1, i2, i3, i4, Or.inr (Or.inl ?_)⟩
      refine toInt' ix _ ?_
      rw [← one]; simpa using p1
    · obtain ⟨k0, l0, i1, i2, i3, i4⟩ := inside ⟨p1, by linarith⟩ ⟨p3, p4⟩
      subst k0 l0
      refine Or.inr ⟨i1, i2, i3, i4, Or.inl ?_⟩
      exact toInt ix 2 (by simpa using p2)
    · have hj' : (j : ℝ) + 1 ≤ d := by exact_mod_cast hj
      have hi' : (i : ℝ) + 1 ≤ d := by exact_mod_cast hi
      have hdc : ((2 * 2 + d : ℕ) : ℝ) = 2 * 2 + d := by push_cast; ring
      have w1 : (0 : ℝ) ≤ ((j : ℝ) + (2 : ℕ)) / ((2 * 2 + d : ℕ) : ℝ) := by positivity
      have w2 : ((j : ℝ) + (2 : ℕ) + 1) / ((2 * 2 + d : ℕ) : ℝ) ≤ 1 := by
        rw [div_le_one hD, hdc]; push_cast; linarith
      have w3 : (0 : ℝ) ≤ (((2 : ℕ) : ℝ) - 1 + d - i) / ((2 * 2 + d : ℕ) : ℝ) := by
        refine div_nonneg ?_ hD.le
        push_cast; linarith
      have w4 : (((2 : ℕ) : ℝ) + d - i) / ((2 * 2 + d : ℕ) : ℝ) ≤ 1 := by
        rw [div_le_one hD, hdc]; push_cast
        have : (0 : ℝ) ≤ i := by positivity
        linarith
      obtain ⟨k0, l0, i1, i2, i3, i4⟩ := inside ⟨by linarith, by linarith⟩ ⟨by linarith, by linarith⟩
      subst k0 l0
      have e1 : ix = j + 2 := by
        have a1 := toInt' ix (j + 2) (by push_cast at p1 ⊢; linarith)
        have a2 := toInt ix (j + 2 + 1) (by push_cast at p2 ⊢; linarith)
        omega
      have e2 : iy = 2 - 1 + d - i := by
        have a1 := toInt' iy (2 - 1 + d - i) (by push_cast at p3 ⊢; linarith)
        have a2 := toInt iy (2 + d - i) (by push_cast at p4 ⊢; linarith)
        omega
      have ex : x = X := by omega
      have ey : y = Y := by omega
      subst ex ey
      refine Or.inr ⟨i1, i2, i3, i4, Or.inr (Or.inr (Or.inr (Or.inr ?_)))⟩
      have t1 : (ix - (2 : ℕ)).toNat = j := by omega
      have t2 : (iy - (2 : ℕ)).toNat = d - 1 - i := by omega
      rw [t1, t2]
      exact hb
    · exact Or.inl ⟨gap_int hdd hs0.le K ix hx1 hx2 p1, gap_int hdd hs0.le L iy hy1 hy2 p2⟩
  · intro h
    refine ⟨Y, hY, X, hX, hid, ?_⟩
    unfold centre
    rw [black_tag ht d 2 _ hdd, sub_self, sub_self, zero_mul]
    have hs' : 1 / 2 < s * ((2 * 2 + d : ℕ) : ℝ) := by
      rw [div_lt_iff₀ (by positivity)] at hs; linarith
    simp only [zero_add, zero_sub]
    have out : ∀ a : ℤ, (a = -1 ∨ a = (2 * 2 + d : ℕ)) →
        (-s ≤ ((a : ℝ) + 1 / 2) / ((2 * 2 + d : ℕ) : ℝ) ∧ ((a : ℝ) + 1 / 2) / ((2 * 2 + d : ℕ) : ℝ) ≤ 0) ∨
        (1 ≤ ((a : ℝ) + 1 / 2) / ((2 * 2 + d : ℕ) : ℝ) ∧
          ((a : ℝ) + 1 / 2) / ((2 * 2 + d : ℕ) : ℝ) ≤ 1 + s) := by
      rintro a (h | h)
      · left
        subst h
        constructor
        · rw [le_div_iff₀ hD]; push_cast at hs' ⊢; linarith
        · rw [div_le_iff₀ hD]; push_cast; linarith
      · right
        subst h
        constructor
        · rw [le_div_iff₀ hD]; push_cast; linarith
        · rw [div_le_iff₀ hD]; push_cast at hs' ⊢; linarith
    have inn : ∀ a : ℤ, 0 ≤ a → a < (2 * 2 + d : ℕ) → 0 ≤ ((a : ℝ) + 1 / 2) / ((2 * 2 + d : ℕ) : ℝ) ∧
        ((a : ℝ) + 1 / 2) / ((2 * 2 + d : ℕ) : ℝ) ≤ 1 := by
      intro a h1 h2
      have h1' : (0 : ℝ) ≤ a := by exact_mod_cast h1
      have h2' : (a : ℝ) + 1 ≤ ((2 * 2 + d : ℕ) : ℝ) := by exact_mod_cast (by omega : a + 1 ≤ ((2 * 2 + d : ℕ) : ℤ))
      constructor
      · positivity
      · rw [div_le_one hD]; linarith
    have ofInt : ∀ a b : ℤ, a < b → ((a : ℝ) + 1 / 2) / ((2 * 2 + d : ℕ) : ℝ) ≤ (b : ℝ) / ((2 * 2 + d : ℕ) : ℝ) := by
      intro a b h
      rw [div_le_div_iff_of_pos_right hD]
      have : (a : ℝ) + 1 ≤ b := by exact_mod_cast h
      linarith
    have ofInt' : ∀ a b : ℤ, b ≤ a → (b : ℝ) / ((2 * 2 + d : ℕ) : ℝ) ≤ ((a : ℝ) + 1 / 2) / ((2 * 2 + d : ℕ) : ℝ) := by
      intro a b h
      rw [div_le_div_iff_of_pos_right hD]
      have : (b : ℝ) ≤ a := by exact_mod_cast h
      linarith
    have one : (1 : ℝ) - ((2 : ℕ) : ℝ) / ((2 * 2 + d : ℕ) : ℝ) =
        (((2 + d : ℕ) : ℤ) : ℝ) / ((2 * 2 + d : ℕ) : ℝ) := by
      rw [eq_div_iff (ne_of_gt hD), sub_mul, div_mul_cancel₀ _ (ne_of_gt hD)]; push_cast; ring
    rcases h with ⟨h1, h2⟩ | ⟨h1, h2, h3, h4, h⟩
    · exact Or.inr (Or.inr (Or.inr (Or.inr (Or.inr ⟨out ix h1, out iy h2⟩))))
    · obtain ⟨u1, u2⟩ := inn ix h1 h2
      obtain ⟨v1, v2⟩ := inn iy h3 h4
      by_cases c1 : iy < 2
      · exact Or.inl ⟨u1, u2, v1, by simpa using ofInt iy 2 c1⟩
      by_cases c2 : ((2 + d : ℕ) : ℤ) ≤ iy
      · exact Or.inr (Or.inl ⟨u1, u2, by rw [one]; exact ofInt' iy _ c2, v2⟩)
      by_cases c3 : ((2 + d : ℕ) : ℤ) ≤ ix
      · exact Or.inr (Or.inr (Or.inl ⟨by rw [one]; exact ofInt' ix _ c3, u2, v1, v2⟩))
      by_cases c4 : ix < 2
      · exact Or.inr (Or.inr (Or.inr (Or.inl ⟨u1, by simpa using ofInt ix 2 c4, v1, v2⟩)))
      have hb : (codes.getD (cols * Y + X) 0).testBit
          (d * (iy - (2 : ℕ)).toNat + (d - 1 - (ix - (2 : ℕ)).toNat)) = false := by
        rcases h with h | h | h | h | h
        · exact absurd h c4
        · exact absurd h c3
        · exact absurd h c1
        · exact absurd h c2
        · exact h
      refine Or.inr (Or.inr (Or.inr (Or.inr (Or.inl ⟨d - 1 - (iy - (2 : ℕ)).toNat, (ix - (2 : ℕ)).toNat,
        by omega, by omega, ?_, ?_, ?_, ?_, ?_⟩))))
      · have e : d - 1 - (d - 1 - (iy - (2 : ℕ)).toNat) = (iy - (2 : ℕ)).toNat := by omega
        rw [e]; exact hb
      · have := ofInt' ix ((ix - (2 : ℕ)).toNat + 2 : ℤ) (by omega)
        push_cast at this ⊢; linarith
      · have := ofInt ix ((ix - (2 : ℕ)).toNat + 2 + 1 : ℤ) (by omega)
        push_cast at this ⊢; linarith
      · have := ofInt' iy (2 - 1 + d - (d - 1 - (iy - (2 : ℕ)).toNat : ℕ) : ℤ) (by omega)
        push_cast at this ⊢; linarith
      · have := ofInt iy (2 + d - (d - 1 - (iy - (2 : ℕ)).toNat : ℕ) : ℤ) (by omega)
        push_cast at this ⊢; linarith

end Kalibr.Print
