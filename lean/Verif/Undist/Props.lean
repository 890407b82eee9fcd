import Verif.Undist.Model
import Verif.Tactics

/-!
# Undistorted images show what the ideal camera sees (C173)
-/

namespace Kalibr.Undist

open Matrix

/-! ## The rectangles -/

theorem mem_grid {q : ℕ × ℕ} : q ∈ grid ↔ q.1 ≤ 8 ∧ q.2 ≤ 8 := by
  obtain ⟨x, y⟩ := q
  simp only [grid, List.mem_flatMap, List.mem_range, List.mem_map, Prod.mk.injEq]
  constructor
  · rintro ⟨b, hb, a, ha, rfl, rfl⟩; omega
  · rintro ⟨h1, h2⟩; exact ⟨y, by omega, x, by omega, rfl, rfl⟩

/-- What holds of the variables after some of the points: each is a limit of the points it is for, and is taken by one
of them or still the initial value. -/
structure LimOk (B : ℝ) (c : Cam) (l : List (ℕ × ℕ)) (s : Lims) : Prop where
  oX0 : (∀ q ∈ l, s.oX0 ≤ (sample c q.1 q.2).1) ∧ (s.oX0 = B ∨ ∃ q ∈ l, s.oX0 = (sample c q.1 q.2).1)
  oX1 : (∀ q ∈ l, (sample c q.1 q.2).1 ≤ s.oX1) ∧ (s.oX1 = -B ∨ ∃ q ∈ l, s.oX1 = (sample c q.1 q.2).1)
  oY0 : (∀ q ∈ l, s.oY0 ≤ (sample c q.1 q.2).2) ∧ (s.oY0 = B ∨ ∃ q ∈ l, s.oY0 = (sample c q.1 q.2).2)
  oY1 : (∀ q ∈ l, (sample c q.1 q.2).2 ≤ s.oY1) ∧ (s.oY1 = -B ∨ ∃ q ∈ l, s.oY1 = (sample c q.1 q.2).2)
  iX0 : (∀ q ∈ l, q.1 = 0 → (sample c q.1 q.2).1 ≤ s.iX0) ∧
    (s.iX0 = -B ∨ ∃ q ∈ l, q.1 = 0 ∧ s.iX0 = (sample c q.1 q.2).1)
  iX1 : (∀ q ∈ l, q.1 = 8 → s.iX1 ≤ (sample c q.1 q.2).1) ∧
    (s.iX1 = B ∨ ∃ q ∈ l, q.1 = 8 ∧ s.iX1 = (sample c q.1 q.2).1)
  iY0 : (∀ q ∈ l, q.2 = 0 → (sample c q.1 q.2).2 ≤ s.iY0) ∧
    (s.iY0 = -B ∨ ∃ q ∈ l, q.2 = 0 ∧ s.iY0 = (sample c q.1 q.2).2)
  iY1 : (∀ q ∈ l, q.2 = 8 → s.iY1 ≤ (sample c q.1 q.2).2) ∧
    (s.iY1 = B ∨ ∃ q ∈ l, q.2 = 8 ∧ s.iY1 = (sample c q.1 q.2).2)

/-- A running minimum. -/
theorem run_min {α : Type} {f : α → ℝ} {P : α → Prop} [DecidablePred P] {l : List α} {m B : ℝ} {a : α}
    (h : (∀ q ∈ l, P q → m ≤ f q) ∧ (m = B ∨ ∃ q ∈ l, P q ∧ m = f q)) :
    (∀ q ∈ l ++ [a], P q → (if P a then min m (f a) else m) ≤ f q) ∧
    ((if P a then min m (f a) else m) = B ∨ ∃ q ∈ l ++ [a], P q ∧ (if P a then min m (f a) else m) = f q) := by
  by_cases ha : P a
  · simp only [if_pos ha]
    refine ⟨fun q hq hp => ?_, ?_⟩
    · rcases List.mem_append.mp hq with hq | hq
      · exact (min_le_left _ _).trans (h.1 q hq hp)
      · rw [List.mem_singleton.mp hq]; exact min_le_right _ _
    · rcases min_choice m (f a) with e | e
      · rw [e]
        rcases h.2 with h2 | ⟨q, hq, h2⟩
        · exact Or.inl h2
        · exact Or.inr ⟨q, by simp [hq], h2⟩
      · rw [e]; exact Or.inr ⟨a, by simp, ha, rfl⟩
  · simp only [if_neg ha]
    refine ⟨fun q hq hp => ?_, ?_⟩
    · rcases List.mem_append.mp hq with hq | hq
      · exact h.1 q hq hp
      · rw [List.mem_singleton.mp hq] at hp; exact absurd hp ha
    · rcases h.2 with h2 | ⟨q, hq, h2⟩
      · exact Or.inl h2
      · exact Or.inr ⟨q, by simp [hq], h2⟩

/-- A running maximum. -/
theorem run_max {α : Type} {f : α → ℝ} {P : α → Prop} [DecidablePred P] {l : List α} {m B : ℝ} {a : α}
    (h : (∀ q ∈ l, P q → f q ≤ m) ∧ (m = B ∨ ∃ q ∈ l, P q ∧ m = f q)) :
    (∀ q ∈ l ++ [a], P q → f q ≤ (if P a then max m (f a) else m)) ∧
    ((if P a then max m (f a) else m) = B ∨ ∃ q ∈ l ++ [a], P q ∧ (if P a then max m (f a) else m) = f q) := by
  by_cases ha : P a
  · simp only [if_pos ha]
    refine ⟨fun q hq hp => ?_, ?_⟩
    · rcases List.mem_append.mp hq with hq | hq
      · exact (h.1 q hq hp).trans (le_max_left _ _)
      · rw [List.mem_singleton.mp hq]; exact le_max_right _ _
    · rcases max_choice m (f a) with e | e
      · rw [e]
        rcases h.2 with h2 | ⟨q, hq, h2⟩
        · exact Or.inl h2
        · exact Or.inr ⟨q, by simp [hq], h2⟩
      · rw [e]; exact Or.inr ⟨a, by simp, ha, rfl⟩
  · simp only [if_neg ha]
    refine ⟨fun q hq hp => ?_, ?_⟩
    · rcases List.mem_append.mp hq with hq | hq
      · exact h.1 q hq hp
      · rw [List.mem_singleton.mp hq] at hp; exact absurd hp ha
    · rcases h.2 with h2 | ⟨q, hq, h2⟩
      · exact Or.inl h2
      · exact Or.inr ⟨q, by simp [hq], h2⟩

theorem limOk (B : ℝ) (c : Cam) (l : List (ℕ × ℕ)) : LimOk B c l (lims B c l) := by
  induction l using List.reverseRecOn with
  | nil => constructor <;> simp [lims, Lims.start]
  | append_singleton l a ih =>
    have e : lims B c (l ++ [a]) = (lims B c l).add a.1 a.2 (sample c a.1 a.2) := by simp [lims]
    rw [e]
    have t (f : ℕ × ℕ → ℝ) {m B' : ℝ} (h : (∀ q ∈ l, m ≤ f q) ∧ (m = B' ∨ ∃ q ∈ l, m = f q)) :
        (∀ q ∈ l ++ [a], min m (f a) ≤ f q) ∧ (min m (f a) = B' ∨ ∃ q ∈ l ++ [a], min m (f a) = f q) := by
      have := run_min (P := fun _ => True) (a := a) (f := f) (m := m) (B := B') (l := l) (by simpa using h)
      simpa using this
    have t' (f : ℕ × ℕ → ℝ) {m B' : ℝ} (h : (∀ q ∈ l, f q ≤ m) ∧ (m = B' ∨ ∃ q ∈ l, m = f q)) :
        (∀ q ∈ l ++ [a], f q ≤ max m (f a)) ∧ (max m (f a) = B' ∨ ∃ q ∈ l ++ [a], max m (f a) = f q) := by
      have := run_max (P := fun _ => True) (a := a) (f := f) (m := m) (B := B') (l := l) (by simpa using h)
      simpa using this
    exact ⟨t (fun q => (sample c q.1 q.2).1) ih.oX0, t' (fun q => (sample c q.1 q.2).1) ih.oX1,
      t (fun q => (sample c q.1 q.2).2) ih.oY0, t' (fun q => (sample c q.1 q.2).2) ih.oY1,
      run_max (P := fun q : ℕ × ℕ => q.1 = 0) (f := fun q : ℕ × ℕ => (sample c q.1 q.2).1) ih.iX0,
      run_min (P := fun q : ℕ × ℕ => q.1 = 8) (f := fun q : ℕ × ℕ => (sample c q.1 q.2).1) ih.iX1,
      run_max (P := fun q : ℕ × ℕ => q.2 = 0) (f := fun q : ℕ × ℕ => (sample c q.1 q.2).2) ih.iY0,
      run_min (P := fun q : ℕ × ℕ => q.2 = 8) (f := fun q : ℕ × ℕ => (sample c q.1 q.2).2) ih.iY1⟩

attribute [local irreducible] grid lims sample

/-- The points of the grid are within the range of `float`. -/
def Bounded (B : ℝ) (c : Cam) : Prop :=
  ∀ x ≤ 8, ∀ y ≤ 8, |(sample c x y).1| ≤ B ∧ |(sample c x y).2| ≤ B

/-- The outer rectangle has all points of the grid, and each of its sides goes through one of them, so that no
smaller one has them all. -/
theorem C173_outer (B : ℝ) (c : Cam) (hB : Bounded B c) :
    (∀ x ≤ 8, ∀ y ≤ 8, (rectangles B c).2.has (sample c x y)) ∧
    ∀ r : Rect, (∀ x ≤ 8, ∀ y ≤ 8, r.has (sample c x y)) →
      r.x ≤ (rectangles B c).2.x ∧ (rectangles B c).2.x + (rectangles B c).2.width ≤ r.x + r.width ∧
      r.y ≤ (rectangles B c).2.y ∧ (rectangles B c).2.y + (rectangles B c).2.height ≤ r.y + r.height := by
  have h := limOk B c grid
  refine ⟨fun x hx y hy => ?_, fun r hr => ?_⟩
  · have m : (x, y) ∈ grid := mem_grid.mpr ⟨hx, hy⟩
    simp only [rectangles, Rect.has, add_sub_cancel]
    exact ⟨h.oX0.1 _ m, h.oX1.1 _ m, h.oY0.1 _ m, h.oY1.1 _ m⟩
  · have hr' (q : ℕ × ℕ) (hq : q ∈ grid) := hr q.1 (mem_grid.mp hq).1 q.2 (mem_grid.mp hq).2
    have h0 := hr 0 (by omega) 0 (by omega)
    have b0 := hB 0 (by omega) 0 (by omega)
    rw [abs_le, abs_le] at b0
    simp only [rectangles, Rect.has, add_sub_cancel] at *
    refine ⟨?_, ?_, ?_, ?_⟩
    · rcases h.oX0.2 with e | ⟨q, hq, e⟩
      · rw [e]; linarith
      · rw [e]; exact (hr' q hq).1
    · rcases h.oX1.2 with e | ⟨q, hq, e⟩
      · rw [e]; linarith
      · rw [e]; exact (hr' q hq).2.1
    · rcases h.oY0.2 with e | ⟨q, hq, e⟩
      · rw [e]; linarith
      · rw [e]; exact (hr' q hq).2.2.1
    · rcases h.oY1.2 with e | ⟨q, hq, e⟩
      · rw [e]; linarith
      · rw [e]; exact (hr' q hq).2.2.2

/-- No point of the border of the original image is inside the inner rectangle; its left side goes through the
rightmost point of the left border, and so on. -/
theorem C173_inner (B : ℝ) (c : Cam) (hB : Bounded B c) :
    (∀ x ≤ 8, ∀ y ≤ 8, (x = 0 ∨ x = 8 ∨ y = 0 ∨ y = 8) → ¬ (rectangles B c).1.inside (sample c x y)) ∧
    (∃ y ≤ 8, (rectangles B c).1.x = (sample c 0 y).1 ∧ ∀ y' ≤ 8, (sample c 0 y').1 ≤ (sample c 0 y).1) ∧
    (∃ y ≤ 8, (rectangles B c).1.x + (rectangles B c).1.width = (sample c 8 y).1 ∧
      ∀ y' ≤ 8, (sample c 8 y).1 ≤ (sample c 8 y').1) ∧
    (∃ x ≤ 8, (rectangles B c).1.y = (sample c x 0).2 ∧ ∀ x' ≤ 8, (sample c x' 0).2 ≤ (sample c x 0).2) ∧
    (∃ x ≤ 8, (rectangles B c).1.y + (rectangles B c).1.height = (sample c x 8).2 ∧
      ∀ x' ≤ 8, (sample c x 8).2 ≤ (sample c x' 8).2) := by
  have h := limOk B c grid
  simp only [rectangles, Rect.inside, add_sub_cancel]
  have m (x y : ℕ) (hx : x ≤ 8) (hy : y ≤ 8) : (x, y) ∈ grid := mem_grid.mpr ⟨hx, hy⟩
  refine ⟨fun x hx y hy hb => ?_, ?_, ?_, ?_, ?_⟩
  · rintro ⟨a1, a2, a3, a4⟩
    rcases hb with e | e | e | e
    · exact absurd (h.iX0.1 _ (m x y hx hy) e) (not_le.mpr a1)
    · exact absurd (h.iX1.1 _ (m x y hx hy) e) (not_le.mpr a2)
    · exact absurd (h.iY0.1 _ (m x y hx hy) e) (not_le.mpr a3)
    · exact absurd (h.iY1.1 _ (m x y hx hy) e) (not_le.mpr a4)
  · rcases h.iX0.2 with e | ⟨⟨x, y⟩, hq, hx, e⟩
    · have b0 := (abs_le.mp (hB 0 (by omega) 0 (by omega)).1).1
      have := h.iX0.1 _ (m 0 0 (by omega) (by omega)) rfl
      refine ⟨0, by omega, by simp only at this; linarith, fun y' hy' => ?_⟩
      have := h.iX0.1 _ (m 0 y' (by omega) hy') rfl
      simp only at this; linarith
    · simp only at hx e; subst hx
      exact ⟨y, (mem_grid.mp hq).2, e, fun y' hy' => e ▸ h.iX0.1 _ (m 0 y' (by omega) hy') rfl⟩
  · rcases h.iX1.2 with e | ⟨⟨x, y⟩, hq, hx, e⟩
    · have b0 := (abs_le.mp (hB 8 (by omega) 0 (by omega)).1).2
      have := h.iX1.1 _ (m 8 0 (by omega) (by omega)) rfl
      refine ⟨0, by omega, by simp only at this; linarith, fun y' hy' => ?_⟩
      have := h.iX1.1 _ (m 8 y' (by omega) hy') rfl
      simp only at this; linarith
    · simp only at hx e; subst hx
      exact ⟨y, (mem_grid.mp hq).2, e, fun y' hy' => e ▸ h.iX1.1 _ (m 8 y' (by omega) hy') rfl⟩
  · rcases h.iY0.2 with e | ⟨⟨x, y⟩, hq, hx, e⟩
    · have b0 := (abs_le.mp (hB 0 (by omega) 0 (by omega)).2).1
      have := h.iY0.1 _ (m 0 0 (by omega) (by omega)) rfl
      refine ⟨0, by omega, by simp only at this; linarith, fun y' hy' => ?_⟩
      have := h.iY0.1 _ (m y' 0 hy' (by omega)) rfl
      simp only at this; linarith
    · simp only at hx e; subst hx
      exact ⟨x, (mem_grid.mp hq).1, e, fun y' hy' => e ▸ h.iY0.1 _ (m y' 0 hy' (by omega)) rfl⟩
  · rcases h.iY1.2 with e | ⟨⟨x, y⟩, hq, hx, e⟩
    · have b0 := (abs_le.mp (hB 0 (by omega) 8 (by omega)).2).2
      have := h.iY1.1 _ (m 0 8 (by omega) (by omega)) rfl
      refine ⟨0, by omega, by simp only at this; linarith, fun y' hy' => ?_⟩
      have := h.iY1.1 _ (m y' 8 hy' (by omega)) rfl
      simp only at this; linarith
    · simp only at hx e; subst hx
      exact ⟨x, (mem_grid.mp hq).1, e, fun y' hy' => e ▸ h.iY1.1 _ (m y' 8 hy' (by omega)) rfl⟩

/-! ## The new camera matrix -/

/-- A rectangle that is not empty, and the fit to an image of more than one pixel in each direction: the points of the
rectangle are the points whose pixels are in the image. -/
theorem fit_has {r : Rect} (hw : 0 < r.width) (hh : 0 < r.height) {w h : ℤ} (w1 : 1 < w) (h1 : 1 < h) (p : P2) :
    r.has p ↔ (0 ≤ ((fit r w h).pixel p).1 ∧ ((fit r w h).pixel p).1 ≤ w - 1 ∧
      0 ≤ ((fit r w h).pixel p).2 ∧ ((fit r w h).pixel p).2 ≤ h - 1) := by
  have hw1 : (0 : ℝ) < (w : ℝ) - 1 := by have : (1 : ℝ) < w := by exact_mod_cast w1
                                         linarith
  have hh1 : (0 : ℝ) < (h : ℝ) - 1 := by have : (1 : ℝ) < h := by exact_mod_cast h1
                                         linarith
  have ex : ((fit r w h).pixel p).1 = ((w : ℝ) - 1) / r.width * (p.1 - r.x) := by simp [fit, Intr.pixel]; ring
  have ey : ((fit r w h).pixel p).2 = ((h : ℝ) - 1) / r.height * (p.2 - r.y) := by simp [fit, Intr.pixel]; ring
  have fx : 0 < ((w : ℝ) - 1) / r.width := div_pos hw1 hw
  have fy : 0 < ((h : ℝ) - 1) / r.height := div_pos hh1 hh
  have wx : ((w : ℝ) - 1) = ((w : ℝ) - 1) / r.width * r.width := by field_simp
  have wy : ((h : ℝ) - 1) = ((h : ℝ) - 1) / r.height * r.height := by field_simp
  rw [ex, ey]
  unfold Rect.has
  generalize ((w : ℝ) - 1) / r.width = a at *
  generalize ((h : ℝ) - 1) / r.height = b at *
  rw [wx, wy, mul_le_mul_iff_right₀ fx, mul_le_mul_iff_right₀ fy, mul_nonneg_iff_of_pos_left fx, mul_nonneg_iff_of_pos_left fy]
  constructor
  · rintro ⟨h1, h2, h3, h4⟩; refine ⟨?_, ?_, ?_, ?_⟩ <;> linarith
  · rintro ⟨h1, h2, h3, h4⟩; refine ⟨?_, ?_, ?_, ?_⟩ <;> linarith

/-- The new camera matrix for `alpha` between zero and one: at zero the image is exactly the inner rectangle, at one it
is exactly the outer one, and between the pixels move on straight lines. -/
theorem C173_camera_matrix (B : ℝ) (c : Cam) (alpha : ℝ) (nw nh : ℤ) (w1 : 1 < nw) (h1 : 1 < nh)
    (iw : 0 < (rectangles B c).1.width) (ih : 0 < (rectangles B c).1.height)
    (ow : 0 < (rectangles B c).2.width) (oh : 0 < (rectangles B c).2.height) (p : P2) :
    ((rectangles B c).1.has p ↔ 0 ≤ ((optimal B c 0 nw nh).pixel p).1 ∧ ((optimal B c 0 nw nh).pixel p).1 ≤ nw - 1 ∧
      0 ≤ ((optimal B c 0 nw nh).pixel p).2 ∧ ((optimal B c 0 nw nh).pixel p).2 ≤ nh - 1) ∧
    ((rectangles B c).2.has p ↔ 0 ≤ ((optimal B c 1 nw nh).pixel p).1 ∧ ((optimal B c 1 nw nh).pixel p).1 ≤ nw - 1 ∧
      0 ≤ ((optimal B c 1 nw nh).pixel p).2 ∧ ((optimal B c 1 nw nh).pixel p).2 ≤ nh - 1) ∧
    (optimal B c alpha nw nh).pixel p =
      (((optimal B c 0 nw nh).pixel p).1 + alpha * (((optimal B c 1 nw nh).pixel p).1 - ((optimal B c 0 nw nh).pixel p).1),
       ((optimal B c 0 nw nh).pixel p).2 + alpha * (((optimal B c 1 nw nh).pixel p).2 - ((optimal B c 0 nw nh).pixel p).2)) := by
  have hne : nw * nh ≠ 0 := mul_ne_zero (by omega) (by omega)
  have e (a : ℝ) : optimal B c a nw nh =
      ⟨(fit (rectangles B c).1 nw nh).fx * (1 - a) + (fit (rectangles B c).2 nw nh).fx * a,
       (fit (rectangles B c).1 nw nh).fy * (1 - a) + (fit (rectangles B c).2 nw nh).fy * a,
       (fit (rectangles B c).1 nw nh).cx * (1 - a) + (fit (rectangles B c).2 nw nh).cx * a,
       (fit (rectangles B c).1 nw nh).cy * (1 - a) + (fit (rectangles B c).2 nw nh).cy * a⟩ := by
    simp [optimal, hne]
  have e0 : optimal B c 0 nw nh = fit (rectangles B c).1 nw nh := by rw [e]; simp
  have e1 : optimal B c 1 nw nh = fit (rectangles B c).2 nw nh := by rw [e]; simp
  refine ⟨?_, ?_, ?_⟩
  · rw [e0]; exact fit_has iw ih w1 h1 p
  · rw [e1]; exact fit_has ow oh w1 h1 p
  · rw [e alpha, e0, e1]
    simp only [Intr.pixel, Prod.mk.injEq]
    constructor <;> ring

/-! ## The map -/

theorem ray_eq (inv : Matrix (Fin 3) (Fin 3) ℝ) (i j : ℕ) : ray inv i j = inv.mulVec ![(j : ℝ), i, 1] := by
  have : ∀ k, ray inv i j k = j * inv k 0 + (i * inv k 1 + inv k 2) := by
    induction j with
    | zero => intro k; simp [ray]
    | succ j ih => intro k; simp only [ray, ih]; push_cast; ring
  ext k
  rw [this]
  simp [Matrix.mulVec, dotProduct, Fin.sum_univ_three]
  ring

/-- The ray of a pixel is that of every point that is seen in the pixel. -/
theorem ray_of {K : Matrix (Fin 3) (Fin 3) ℝ} (hK : IsUnit K.det) (P : Fin 3 → ℝ) (hq : K.mulVec P 2 ≠ 0) (i j : ℕ)
    (hj : K.mulVec P 0 / K.mulVec P 2 = j) (hi : K.mulVec P 1 / K.mulVec P 2 = i) :
    ray K⁻¹ i j = (K.mulVec P 2)⁻¹ • P := by
  rw [ray_eq]
  have : ![(j : ℝ), i, 1] = (K.mulVec P 2)⁻¹ • K.mulVec P := by
    ext k
    fin_cases k
    · simp [← hj]; ring
    · simp [← hi]; ring
    · simp [hq]
  rw [this, Matrix.mulVec_smul, Matrix.mulVec_mulVec, Matrix.nonsing_inv_mul _ hK, Matrix.one_mulVec]

/-- The map for any rectification and any new camera matrix: the entry of a pixel is the place, in the original image,
of every point in space that the new camera sees in that pixel. -/
theorem C173_map (rnd : ℝ → ℤ) (c : Cam) (R newK : Matrix (Fin 3) (Fin 3) ℝ) (hK : IsUnit (newK * R).det) (P : Fin 3 → ℝ)
    (hq : (newK * R).mulVec P 2 ≠ 0) (i j : ℕ)
    (hj : (newK * R).mulVec P 0 / (newK * R).mulVec P 2 = j) (hi : (newK * R).mulVec P 1 / (newK * R).mulVec P 2 = i) :
    mapEntry rnd c R newK i j = encode rnd (c.project P) := by
  unfold mapEntry
  rw [ray_of hK P hq i j hj hi]
  have e (k : Fin 3) : ((newK * R).mulVec P 2)⁻¹ * P k * (1 / (((newK * R).mulVec P 2)⁻¹ * P 2)) = P k / P 2 := by
    by_cases h : P 2 = 0
    · simp [h]
    · field_simp
  simp only [Pi.smul_apply, smul_eq_mul, e, Cam.project]

/-- The whole part of a pixel fits in a `short`. -/
def InShort (u : ℝ) : Prop := -32768 ≤ u ∧ u ≤ 32767

theorem short_eq {i : ℤ} (h1 : -32768 ≤ i) (h2 : i < 32768) : short i = i := by
  unfold short
  rw [Int.bmod_eq_of_le] <;> omega

theorem decode_encode (rnd : ℝ → ℤ) (uv : P2) (h1 : -32768 ≤ rnd (uv.1 * 32) / 32 ∧ rnd (uv.1 * 32) / 32 < 32768)
    (h2 : -32768 ≤ rnd (uv.2 * 32) / 32 ∧ rnd (uv.2 * 32) / 32 < 32768) :
    (encode rnd uv).decode = ((rnd (uv.1 * 32) : ℝ) / 32, (rnd (uv.2 * 32) : ℝ) / 32) := by
  unfold encode Entry.decode
  simp only
  generalize rnd (uv.1 * 32) = iu at *
  generalize rnd (uv.2 * 32) = iv at *
  rw [short_eq h1.1 h1.2, short_eq h2.1 h2.2]
  have e1 : (iv % 32 * 32 + iu % 32) % 65536 % 32 = iu % 32 := by omega
  have e2 : (iv % 32 * 32 + iu % 32) % 65536 / 32 = iv % 32 := by omega
  rw [e1, e2]
  have f (z : ℤ) : ((z / 32 : ℤ) : ℝ) + ((z % 32 : ℤ) : ℝ) / 32 = (z : ℝ) / 32 := by
    have : (z : ℝ) = 32 * ((z / 32 : ℤ) : ℝ) + ((z % 32 : ℤ) : ℝ) := by exact_mod_cast (Int.mul_ediv_add_emod z 32).symm
    rw [this]; ring
  rw [f, f]

/-- What is read from an entry is the pixel, up to half of a thirty-second, for pixels whose whole part fits in a
`short`. -/
theorem C173_entry (rnd : ℝ → ℤ) (hr : Rounds rnd) (uv : P2) (h1 : InShort uv.1) (h2 : InShort uv.2) :
    |(encode rnd uv).decode.1 - uv.1| ≤ 1 / 64 ∧ |(encode rnd uv).decode.2 - uv.2| ≤ 1 / 64 := by
  have b {u : ℝ} (h : InShort u) : -32768 ≤ rnd (u * 32) / 32 ∧ rnd (u * 32) / 32 < 32768 := by
    have := abs_le.mp (hr (u * 32))
    obtain ⟨a1, a2⟩ := h
    have l1 : (-1048577 : ℝ) < (rnd (u * 32) : ℝ) := by linarith [this.1]
    have l2 : (rnd (u * 32) : ℝ) < 1048576 := by linarith [this.2]
    have l1' : -1048577 < rnd (u * 32) := by exact_mod_cast l1
    have l2' : rnd (u * 32) < 1048576 := by exact_mod_cast l2
    omega
  rw [decode_encode rnd uv (b h1) (b h2)]
  have g (u : ℝ) : |(rnd (u * 32) : ℝ) / 32 - u| ≤ 1 / 64 := by
    have := abs_le.mp (hr (u * 32))
    rw [abs_le]
    constructor <;> linarith [this.1, this.2]
  exact ⟨g _, g _⟩

/-- A pixel far outside of the original image is taken for one inside, since the whole part is cut to a `short`. -/
theorem C173_far_counterexample (rnd : ℝ → ℤ) (hr : Rounds rnd) : (encode rnd (65536, 0)).decode = (0, 0) := by
  have e1 : rnd (65536 * 32) = 2097152 := by
    have := abs_le.mp (hr (65536 * 32))
    generalize rnd (65536 * 32) = z at this ⊢
    have l1 : (2097151 : ℝ) < z := by linarith [this.1]
    have l2 : (z : ℝ) < 2097153 := by linarith [this.2]
    have l1' : 2097151 < z := by exact_mod_cast l1
    have l2' : z < 2097153 := by exact_mod_cast l2
    omega
  have e2 : rnd (0 * 32) = 0 := by
    have := abs_le.mp (hr (0 * 32))
    generalize rnd (0 * 32) = z at this ⊢
    have l1 : (-1 : ℝ) < z := by linarith [this.1]
    have l2 : (z : ℝ) < 1 := by linarith [this.2]
    have l1' : -1 < z := by exact_mod_cast l1
    have l2' : z < 1 := by exact_mod_cast l2
    omega
  unfold encode Entry.decode
  simp only [e1, e2]
  norm_num [short, Int.bmod]

/-- The pinhole undistorter: the pixel of the undistorted image in which the ideal camera sees a point is taken from the
place where the original camera sees it, up to half of a thirty-second of a pixel, for every distortion, every free
parameter and every scale. -/
theorem C173_undistorted (B : ℝ) (rnd : ℝ → ℤ) (hr : Rounds rnd) (c : Cam) (alpha scale : ℝ)
    (hfx : (undistorter B rnd c alpha scale).ideal.fu ≠ 0) (hfy : (undistorter B rnd c alpha scale).ideal.fv ≠ 0)
    (P : Fin 3 → ℝ) (hP : P 2 ≠ 0) (i j : ℕ) (hij : (undistorter B rnd c alpha scale).ideal.project P = ((j : ℝ), (i : ℝ)))
    (h1 : InShort (c.project P).1) (h2 : InShort (c.project P).2) :
    |((undistorter B rnd c alpha scale).entry i j).decode.1 - (c.project P).1| ≤ 1 / 64 ∧
    |((undistorter B rnd c alpha scale).entry i j).decode.2 - (c.project P).2| ≤ 1 / 64 := by
  simp only [undistorter] at hfx hfy hij ⊢
  generalize optimal B c alpha (scaled c.w scale) (scaled c.h scale) = k at *
  have hd : (k.matrix * 1).det = k.fx * k.fy := by
    simp [Intr.matrix, Matrix.det_fin_three]
  have m0 : (k.matrix * 1).mulVec P 0 = k.fx * P 0 + k.cx * P 2 := by
    simp [Intr.matrix, Matrix.mulVec, dotProduct, Fin.sum_univ_three]
  have m1 : (k.matrix * 1).mulVec P 1 = k.fy * P 1 + k.cy * P 2 := by
    simp [Intr.matrix, Matrix.mulVec, dotProduct, Fin.sum_univ_three]
  have m2 : (k.matrix * 1).mulVec P 2 = P 2 := by
    simp [Intr.matrix, Matrix.mulVec, dotProduct, Fin.sum_univ_three]
  simp only [Cam.project, id, Prod.mk.injEq] at hij
  rw [C173_map rnd c 1 k.matrix (by rw [hd]; exact (mul_ne_zero hfx hfy).isUnit) P (by rw [m2]; exact hP) i j
    (by rw [m0, m2, ← hij.1]; field_simp) (by rw [m1, m2, ← hij.2]; field_simp)]
  exact C173_entry rnd hr _ h1 h2

/-- The map of the omnidirectional undistorter to a pinhole image, for every camera whose image of a point depends on its
direction only. -/
theorem C173_omni_pinhole (rnd : ℝ → ℤ) (hr : Rounds rnd) (project : (Fin 3 → ℝ) → P2)
    (hp : ∀ (s : ℝ) (P : Fin 3 → ℝ), 0 < s → project (s • P) = project P) (k : Intr) (hx : k.fx ≠ 0) (hy : k.fy ≠ 0)
    (P : Fin 3 → ℝ) (hP : 0 < P 2) (i j : ℕ) (hij : k.pixel (P 0 / P 2, P 1 / P 2) = ((j : ℝ), (i : ℝ)))
    (h1 : InShort (project P).1) (h2 : InShort (project P).2) :
    |(omniEntry rnd project k.matrix i j).decode.1 - (project P).1| ≤ 1 / 64 ∧
    |(omniEntry rnd project k.matrix i j).decode.2 - (project P).2| ≤ 1 / 64 := by
  have hd : k.matrix.det = k.fx * k.fy := by
    simp [Intr.matrix, Matrix.det_fin_three]
  have m0 : k.matrix.mulVec P 0 = k.fx * P 0 + k.cx * P 2 := by
    simp [Intr.matrix, Matrix.mulVec, dotProduct, Fin.sum_univ_three]
  have m1 : k.matrix.mulVec P 1 = k.fy * P 1 + k.cy * P 2 := by
    simp [Intr.matrix, Matrix.mulVec, dotProduct, Fin.sum_univ_three]
  have m2 : k.matrix.mulVec P 2 = P 2 := by
    simp [Intr.matrix, Matrix.mulVec, dotProduct, Fin.sum_univ_three]
  simp only [Intr.pixel, Prod.mk.injEq] at hij
  have h0 := hP.ne'
  unfold omniEntry
  rw [ray_of (by rw [hd]; exact (mul_ne_zero hx hy).isUnit) P (by rw [m2]; exact h0) i j
    (by rw [m0, m2, ← hij.1]; field_simp) (by rw [m1, m2, ← hij.2]; field_simp), m2, hp _ _ (inv_pos.mpr hP)]
  exact C173_entry rnd hr _ h1 h2

/-- The pinhole camera made from an omnidirectional one whose corners are back projected to opposite directions: it sees
the first corner half a pixel before the first pixel and the other one half a pixel after the last, so the image covers
exactly what lies between the corners. -/
theorem C173_omni_frame_partial (back : P2 → Fin 3 → ℝ) (w h : ℕ) (a b : ℝ) (ha : a ≠ 0) (hb : b ≠ 0)
    (tl : back (0, 0) 0 / back (0, 0) 2 = -a ∧ back (0, 0) 1 / back (0, 0) 2 = -b)
    (br : back ((w : ℝ), (h : ℝ)) 0 / back ((w : ℝ), (h : ℝ)) 2 = a ∧
      back ((w : ℝ), (h : ℝ)) 1 / back ((w : ℝ), (h : ℝ)) 2 = b) :
    let k := omniPinhole back w h
    k.fx * -a + k.cx = -1 / 2 ∧ k.fy * -b + k.cy = -1 / 2 ∧
    k.fx * a + k.cx = (w - 1) + 1 / 2 ∧ k.fy * b + k.cy = (h - 1) + 1 / 2 := by
  have e1 : a - -a ≠ 0 := by intro e; apply ha; linarith
  have e2 : b - -b ≠ 0 := by intro e; apply hb; linarith
  simp only [omniPinhole, tl.1, tl.2, br.1, br.2]
  refine ⟨?_, ?_, ?_, ?_⟩ <;> (field_simp; ring)

/-- The hypotheses are met. -/
example : ∃ back : P2 → Fin 3 → ℝ, back (0, 0) 0 / back (0, 0) 2 = -1 ∧ back (0, 0) 1 / back (0, 0) 2 = -2 ∧
    back (((4 : ℕ) : ℝ), ((8 : ℕ) : ℝ)) 0 / back (((4 : ℕ) : ℝ), ((8 : ℕ) : ℝ)) 2 = 1 ∧
    back (((4 : ℕ) : ℝ), ((8 : ℕ) : ℝ)) 1 / back (((4 : ℕ) : ℝ), ((8 : ℕ) : ℝ)) 2 = 2 :=
  ⟨fun p i => if i = 0 then p.1 / 2 - 1 else if i = 1 then p.2 / 2 - 2 else 1, by
    have e0 : (2 : Fin 3) ≠ 0 := by decide
    have e1 : (2 : Fin 3) ≠ 1 := by decide
    norm_num [e0, e1]⟩

/-! ## Without distortion -/

theorem grid_end (w : ℤ) : ((8 : ℕ) * w : ℤ).tdiv 8 = w := by
  have : ((8 : ℕ) * w : ℤ) = w * 8 := by push_cast; ring
  rw [this]; exact Int.mul_tdiv_cancel w (by norm_num)

/-- A camera without distortion, with an image whose width and height are multiples of eight. -/
theorem rect_ident (B : ℝ) (c : Cam) (hB : Bounded B c) (hu : ∀ p, c.undistort p = p) (fu : 0 < c.fu) (fv : 0 < c.fv)
    (hw : 0 ≤ c.w) (hh : 0 ≤ c.h) :
    rectangles B c = (⟨-c.cu / c.fu, -c.cv / c.fv, c.w / c.fu, c.h / c.fv⟩, ⟨-c.cu / c.fu, -c.cv / c.fv, c.w / c.fu, c.h / c.fv⟩) := by
  have s (x y : ℕ) : sample c x y = (((((x : ℤ) * c.w).tdiv 8 : ℤ) - c.cu) / c.fu, ((((y : ℤ) * c.h).tdiv 8 : ℤ) - c.cv) / c.fv) := by
    unfold sample; simp only [hu]
  obtain ⟨-, ⟨y1, -, a1, -⟩, ⟨y2, -, a2, -⟩, ⟨x1, -, a3, -⟩, ⟨x2, -, a4, -⟩⟩ := C173_inner B c hB
  obtain ⟨o1, o2⟩ := C173_outer B c hB
  rw [s] at a1 a2 a3 a4
  have z (v : ℤ) : (((0 : ℕ) : ℤ) * v).tdiv 8 = 0 := by simp
  rw [z] at a1 a3
  rw [grid_end] at a2 a4
  have b00 := o1 0 (by omega) 0 (by omega)
  have b88 := o1 8 (by omega) 8 (by omega)
  rw [s] at b00 b88
  rw [z, z] at b00
  rw [grid_end, grid_end] at b88
  have mono (v : ℤ) (hv : 0 ≤ v) (x : ℕ) (hx : x ≤ 8) : 0 ≤ ((x : ℤ) * v).tdiv 8 ∧ ((x : ℤ) * v).tdiv 8 ≤ v := by
    rw [Int.tdiv_eq_ediv_of_nonneg (by positivity)]
    constructor
    · exact Int.ediv_nonneg (by positivity) (by norm_num)
    · have : (x : ℤ) * v ≤ 8 * v := mul_le_mul_of_nonneg_right (by exact_mod_cast hx) hv
      calc (x : ℤ) * v / 8 ≤ (8 * v) / 8 := Int.ediv_le_ediv (by norm_num) this
        _ = v := Int.mul_ediv_cancel_left v (by norm_num)
  obtain ⟨c1, c2, c3, c4⟩ := o2 ⟨-c.cu / c.fu, -c.cv / c.fv, c.w / c.fu, c.h / c.fv⟩ (by
    intro x hx y hy
    rw [s]
    obtain ⟨m1, m2⟩ := mono c.w hw x hx
    obtain ⟨m3, m4⟩ := mono c.h hh y hy
    have m1' : (0 : ℝ) ≤ (((x : ℤ) * c.w).tdiv 8 : ℤ) := by exact_mod_cast m1
    have m2' : ((((x : ℤ) * c.w).tdiv 8 : ℤ) : ℝ) ≤ c.w := by exact_mod_cast m2
    have m3' : (0 : ℝ) ≤ (((y : ℤ) * c.h).tdiv 8 : ℤ) := by exact_mod_cast m3
    have m4' : ((((y : ℤ) * c.h).tdiv 8 : ℤ) : ℝ) ≤ c.h := by exact_mod_cast m4
    simp only [Rect.has]
    rw [← add_div, ← add_div]
    refine ⟨?_, ?_, ?_, ?_⟩
    all_goals gcongr
    all_goals linarith)
  simp only [Rect.has] at b00 b88
  rcases hrc : rectangles B c with ⟨ri, ro⟩
  rw [hrc] at a1 a2 a3 a4 b00 b88 c1 c2 c3 c4
  obtain ⟨ix, iy, iw, ih⟩ := ri
  obtain ⟨ox, oy, ow, oh⟩ := ro
  simp only at a1 a2 a3 a4 b00 b88 c1 c2 c3 c4
  push_cast at a1 a2 a3 a4 b00 b88
  simp only [zero_sub, sub_div, neg_div] at *
  simp only [Prod.mk.injEq, Rect.mk.injEq]
  refine ⟨⟨?_, ?_, ?_, ?_⟩, ?_, ?_, ?_, ?_⟩ <;> linarith [b00.1, b00.2.2.1, b88.2.1, b88.2.2.2]

/-- Without distortion the new camera does not depend on the free parameter, but it is not the camera one has: the
focal length is multiplied by the new width less one, over the old width, even if the width stays the same. -/
theorem C173_identity_counterexample (B : ℝ) (c : Cam) (hB : Bounded B c) (hu : ∀ p, c.undistort p = p)
    (fu : 0 < c.fu) (fv : 0 < c.fv) (hw : 1 < c.w) (hh : 1 < c.h) (alpha : ℝ) (rnd : ℝ → ℤ) :
    (undistorter B rnd c alpha 1).ideal.fu = c.fu * ((c.w - 1) / c.w) ∧
    (undistorter B rnd c alpha 1).ideal.fu < c.fu ∧
    (undistorter B rnd c alpha 1).ideal.cu = c.cu * ((c.w - 1) / c.w) := by
  have s1 (v : ℤ) : scaled v 1 = v := by simp [scaled]
  have hwr : (1 : ℝ) < c.w := by exact_mod_cast hw
  have e : optimal B c alpha c.w c.h = fit ⟨-c.cu / c.fu, -c.cv / c.fv, c.w / c.fu, c.h / c.fv⟩ c.w c.h := by
    unfold optimal
    rw [rect_ident B c hB hu fu fv (by omega) (by omega)]
    simp [fit]
    refine ⟨?_, ?_, ?_, ?_⟩ <;> ring
  simp only [undistorter, s1, e, fit]
  have hw0 : (c.w : ℝ) ≠ 0 := by linarith
  refine ⟨by field_simp, ?_, by field_simp⟩
  rw [div_div_eq_mul_div, div_lt_iff₀ (by linarith)]
  nlinarith

/-- The mask is not undistorted and not scaled: with half of the size and no distortion at all, a point that the
original camera sees in a pixel that is masked out is seen by the ideal camera in a pixel that is not. -/
theorem C173_mask_counterexample : ∃ (c : Cam) (P : Fin 3 → ℝ),
    c.mask (c.project P) = false ∧
    ∀ (B : ℝ) (rnd : ℝ → ℤ) (alpha : ℝ), Bounded B c →
      (undistorter B rnd c alpha (1 / 2)).ideal.mask ((undistorter B rnd c alpha (1 / 2)).ideal.project P) = true := by
  classical
  refine ⟨⟨8, 8, 0, 0, 8, 8, id, id, fun p => !decide (p = (8, 0))⟩, ![1, 0, 1], by simp [Cam.project],
    fun B rnd alpha hB => ?_⟩
  have e : optimal B ⟨8, 8, 0, 0, 8, 8, id, id, fun p => !decide (p = (8, 0))⟩ alpha 4 4 = ⟨3, 3, 0, 0⟩ := by
    unfold optimal
    rw [rect_ident B _ hB (fun p => rfl) (by norm_num) (by norm_num) (by norm_num) (by norm_num)]
    norm_num [fit]
    ring
  have s : scaled 8 (1 / 2) = 4 := by
    unfold scaled
    rw [if_pos (by norm_num), Int.floor_eq_iff]
    norm_num
  simp only [undistorter, s, e, Cam.project]
  simp

/-! ## The null undistorter and the factory -/

/-- At scale one the frame of the null undistorter has the image and the camera it was given, and the image is a copy
exactly if one was asked for. -/
theorem C173_null_partial (rnd : ℝ → ℤ) (c : Cam) (makeCopy : Bool) :
    nullFrame rnd c 1 makeCopy (c.w, c.h) = ⟨(c.w, c.h), !makeCopy, c⟩ := by
  simp [nullFrame, nullCam]

/-- At any other scale a point is seen at the pixel times the scale, if the distortion is as before. -/
theorem C173_null_scale (rnd : ℝ → ℤ) (c : Cam) (scale : ℝ) (makeCopy : Bool) (size : ℤ × ℤ) (P : Fin 3 → ℝ) :
    (nullFrame rnd c scale makeCopy size).cam.project P = ((c.project P).1 * scale, (c.project P).2 * scale) := by
  by_cases h : scale = 1
  · simp [nullFrame, nullCam, h]
  · simp only [nullFrame, nullCam, ne_eq, h, not_false_eq_true, if_true, resize, Cam.project, Prod.mk.injEq]
    constructor <;> ring

/-- But the image and the camera of a frame may differ in size: one is rounded, the other cut. -/
theorem C173_null_size_counterexample (rnd : ℝ → ℤ) (hr : Rounds rnd) (c : Cam) (hw : c.w = 5) :
    (nullFrame rnd c (7 / 20) false (c.w, c.h)).size.1 = 2 ∧ (nullFrame rnd c (7 / 20) false (c.w, c.h)).cam.w = 1 := by
  have hs : (7 / 20 : ℝ) ≠ 1 := by norm_num
  constructor
  · simp only [nullFrame, ne_eq, hs, not_false_eq_true, if_true, hw]
    have := abs_le.mp (hr ((5 : ℤ) * (7 / 20)))
    push_cast at this ⊢
    have l1 : (1 : ℝ) < rnd (5 * (7 / 20)) := by linarith [this.1]
    have l2 : (rnd (5 * (7 / 20)) : ℝ) < 3 := by linarith [this.2]
    have l1' : 1 < rnd (5 * (7 / 20)) := by exact_mod_cast l1
    have l2' : rnd (5 * (7 / 20)) < 3 := by exact_mod_cast l2
    omega
  · simp only [nullFrame, nullCam, ne_eq, hs, not_false_eq_true, if_true, resize, hw]
    unfold scaled
    rw [if_pos (by norm_num), Int.floor_eq_iff]
    norm_num

/-- The undistorters there are. -/
def Known : Kind → Prop
  | .pinhole .none _ => False
  | _ => True

/-- The factory makes every undistorter there is from its name, and throws for every other text. -/
theorem C173_factory : (∀ k, Known k → create (nameOf k) = .ok k) ∧
    ∀ s, (∀ k, Known k → nameOf k ≠ s) → create s = .raise := by
  constructor
  · rintro (⟨o, d, r, m⟩ | ⟨d, m⟩ | m) h
    · cases o <;> cases d <;> cases r <;> cases m <;> rfl
    · cases d
      · exact absurd h (by simp [Known])
      · cases m <;> rfl
      · cases m <;> rfl
    · cases m <;> rfl
  · intro s h
    have go (k : Kind) (t : String) (e : s = t) (hk : Known k) (ht : nameOf k = t) : Out.ok k = Out.raise :=
      absurd (ht.trans e.symm) (h k hk)
    have step {P : Prop} [Decidable P] {a b : Out Kind} (h1 : P → a = Out.raise) (h2 : b = Out.raise) :
        (if P then a else b) = Out.raise := by
      by_cases hp : P
      · rw [if_pos hp]; exact h1 hp
      · rw [if_neg hp]; exact h2
    unfold create
    repeat refine step (fun e => go _ _ e trivial rfl) ?_
    rfl

/-! ## The hypotheses are met -/

/-- A camera without distortion. -/
def cam0 : Cam := ⟨8, 8, 0, 0, 8, 8, id, id, fun _ => true⟩

theorem cam0_bounded : Bounded 1 cam0 := by
  intro x hx y hy
  have e (v : ℕ) : ((v : ℤ) * 8).tdiv 8 = v := Int.mul_tdiv_cancel _ (by norm_num)
  have b (v : ℕ) (hv : v ≤ 8) : |((v : ℝ) - 0) / 8| ≤ 1 := by
    have : (v : ℝ) ≤ 8 := by exact_mod_cast hv
    rw [sub_zero, abs_of_nonneg (by positivity)]
    linarith
  unfold sample
  simp only [cam0, e, id]
  push_cast
  exact ⟨b x hx, b y hy⟩

/-- Its rectangles are not empty. -/
example : 0 < (rectangles 1 cam0).1.width ∧ 0 < (rectangles 1 cam0).1.height ∧
    0 < (rectangles 1 cam0).2.width ∧ 0 < (rectangles 1 cam0).2.height := by
  rw [rect_ident 1 cam0 cam0_bounded (fun p => rfl) (by norm_num [cam0]) (by norm_num [cam0]) (by norm_num [cam0])
    (by norm_num [cam0])]
  norm_num [cam0]

/-- Rounding exists. -/
example : Rounds round := fun x => by rw [abs_sub_comm]; exact abs_sub_round x

/-- A point that the ideal camera of half the size sees in a pixel. -/
example : (undistorter 1 round cam0 0 (1 / 2)).ideal.fu = 3 ∧
    (undistorter 1 round cam0 0 (1 / 2)).ideal.project ![1, 0, 3] = (((1 : ℕ) : ℝ), ((0 : ℕ) : ℝ)) ∧
    InShort (cam0.project ![1, 0, 3]).1 := by
  have e : optimal 1 cam0 0 4 4 = ⟨3, 3, 0, 0⟩ := by
    unfold optimal
    rw [rect_ident 1 _ cam0_bounded (fun p => rfl) (by norm_num [cam0]) (by norm_num [cam0]) (by norm_num [cam0])
      (by norm_num [cam0])]
    norm_num [fit, cam0]
  have s : scaled 8 (1 / 2) = 4 := by
    unfold scaled
    rw [if_pos (by norm_num), Int.floor_eq_iff]
    norm_num
  have e' : optimal 1 cam0 0 (scaled cam0.w (1 / 2)) (scaled cam0.h (1 / 2)) = ⟨3, 3, 0, 0⟩ := by
    rw [show cam0.w = 8 from rfl, show cam0.h = 8 from rfl, s, e]
  refine ⟨by simp only [undistorter, e'], ?_, ?_⟩
  · simp only [undistorter, e', Cam.project]
    simp
  · simp [InShort, Cam.project, cam0]; norm_num

end Kalibr.Undist
