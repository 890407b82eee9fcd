import Verif.Print.Paper
import Verif.Print.Gray
import Verif.Tag.Props
import Verif.Tag.Tables
import Verif.Target.AprilProps
import Mathlib.Tactic.FinCases

/-!
# C133: the detector reads a printed tag as what it is
-/

namespace Kalibr.Print

open Kalibr.Target (P2 Det)
open Kalibr.Tag (turn turns pattern diff t36h11)

/-! ## Bits -/

theorem foldl_sim {α β γ : Type} (g : α → β) (f : β → γ → β) (f' : α → γ → α) (l : List γ)
    (h : ∀ a, ∀ x ∈ l, f (g a) x = g (f' a x)) (a : α) : l.foldl f (g a) = g (l.foldl f' a) := by
  induction l generalizing a with
  | nil => rfl
  | cons x l ih =>
    rw [List.foldl_cons, List.foldl_cons, h a x (by simp)]
    exact ih (fun a y hy => h a y (by simp [hy])) _

/-- One row of bits, the first one the most significant. -/
theorem row_testBit (β : ℕ → Bool) (n a i : ℕ) :
    ((List.range n).foldl (fun a x => 2 * a + (β x).toNat) a).testBit i =
      if i < n then β (n - 1 - i) else a.testBit (i - n) := by
  induction n generalizing i with
  | zero => simp
  | succ n ih =>
    rw [List.range_succ, List.foldl_append]
    simp only [List.foldl_cons, List.foldl_nil]
    cases i with
    | zero => cases h : β n <;> simp [Nat.testBit_zero, h] <;> omega
    | succ i =>
      rw [Nat.testBit_succ]
      have e : ∀ z : ℕ, (2 * z + (β n).toNat) / 2 = z := by
        intro z; have := (β n).toNat_le; omega
      rw [e, ih]
      have e1 : n + 1 - 1 - (i + 1) = n - 1 - i := by omega
      have e2 : i + 1 - (n + 1) = i - n := by omega
      rw [e1, e2]
      simp only [Nat.add_lt_add_iff_right]

/-- Rows of bits, the last row the most significant. -/
theorem rows_testBit (β : ℕ → ℕ → Bool) (d n a i : ℕ) (hd : 0 < d) :
    ((List.range n).reverse.foldl
      (fun a y => (List.range d).foldl (fun a x => 2 * a + (β y x).toNat) a) a).testBit i =
      if i < d * n then β (i / d) (d - 1 - i % d) else a.testBit (i - d * n) := by
  induction n generalizing a with
  | zero => simp
  | succ n ih =>
    rw [List.range_succ, List.reverse_append]
    simp only [List.reverse_singleton, List.singleton_append, List.foldl_cons]
    rw [ih, row_testBit]
    have hm : d * (n + 1) = d * n + d := by ring
    by_cases h1 : i < d * n
    · rw [if_pos h1, if_pos (by omega)]
    · rw [if_neg h1]
      by_cases h2 : i < d * (n + 1)
      · obtain ⟨r, hr⟩ : ∃ r, i = d * n + r := ⟨i - d * n, by omega⟩
        subst hr
        have hrd : r < d := by omega
        rw [if_pos h2, if_pos (by omega)]
        rw [Nat.mul_add_div hd, Nat.mul_add_mod, Nat.div_eq_of_lt hrd, Nat.mod_eq_of_lt hrd, add_zero]
        congr 1
        omega
      · rw [if_neg h2, if_neg (by omega)]
        congr 1
        omega

/-! ## Cells of the quadrilateral and cells of the tag -/

/-- The cell of the tag seen at a cell of a quadrilateral that starts at corner `k`. -/
def rotCell (n : ℤ) : ℕ → ℤ × ℤ → ℤ × ℤ
  | 0, c => c
  | k + 1, c => rotCell n k (n - 1 - c.2, c.1)

theorem rotCell_shift (n b : ℤ) (k : ℕ) (x y : ℤ) :
    rotCell (2 * b + n) k (b + x, b + y) =
      (b + (rotCell n k (x, y)).1, b + (rotCell n k (x, y)).2) := by
  induction k generalizing x y with
  | zero => rfl
  | succ k ih =>
    simp only [rotCell]
    have : 2 * b + n - 1 - (b + y) = b + (n - 1 - y) := by ring
    rw [this, ih]

theorem rotCell_range (n lo hi : ℤ) (hsum : lo + hi = n - 1) (k : ℕ) (c : ℤ × ℤ) (h1 : lo ≤ c.1)
    (h2 : c.1 ≤ hi) (h3 : lo ≤ c.2) (h4 : c.2 ≤ hi) :
    lo ≤ (rotCell n k c).1 ∧ (rotCell n k c).1 ≤ hi ∧ lo ≤ (rotCell n k c).2 ∧ (rotCell n k c).2 ≤ hi := by
  induction k generalizing c with
  | zero => exact ⟨h1, h2, h3, h4⟩
  | succ k ih => exact ih _ (by simp only; omega) (by simp only; omega) h1 h2

theorem rotCell_corner (n : ℤ) (k : ℕ) (c : ℤ × ℤ) :
    (((rotCell n k c).1 = -1 ∨ (rotCell n k c).1 = n) ∧ ((rotCell n k c).2 = -1 ∨ (rotCell n k c).2 = n)) ↔
      ((c.1 = -1 ∨ c.1 = n) ∧ (c.2 = -1 ∨ c.2 = n)) := by
  induction k generalizing c with
  | zero => rfl
  | succ k ih =>
    rw [rotCell, ih]
    simp only
    constructor <;> rintro ⟨h1, h2⟩ <;> exact ⟨by omega, by omega⟩

theorem rotCell_edge (n : ℤ) (k : ℕ) (c : ℤ × ℤ) (P : ℤ → Prop) (hP : ∀ z, P (n - 1 - z) ↔ P z) :
    (P (rotCell n k c).1 ∨ P (rotCell n k c).2) ↔ (P c.1 ∨ P c.2) := by
  induction k generalizing c with
  | zero => rfl
  | succ k ih =>
    rw [rotCell, ih]
    simp only [hP]
    exact or_comm

/-- A pattern turned `k` times shows in each cell what the original shows in the rotated cell. -/
theorem turns_cell {d : ℕ} (k : ℕ) (g : ℕ → Bool) (x y : ℕ) (hx : x < d) (hy : y < d) :
    ∃ x' y', x' < d ∧ y' < d ∧ rotCell d k ((x : ℤ), (y : ℤ)) = ((x' : ℤ), (y' : ℤ)) ∧
      turns d k g (d * y + (d - 1 - x)) = g (d * y' + (d - 1 - x')) := by
  induction k generalizing x y with
  | zero => exact ⟨x, y, hx, hy, rfl, rfl⟩
  | succ k ih =>
    obtain ⟨x', y', h1, h2, h3, h4⟩ := ih (d - 1 - y) x (by omega) hx
    refine ⟨x', y', h1, h2, ?_, ?_⟩
    · rw [rotCell, ← h3]
      simp only
      congr 2
      omega
    · rw [turns, ← h4, turn]
      have hlt : d * y + (d - 1 - x) < d * d := by
        calc d * y + (d - 1 - x) < d * y + d := by omega
          _ = d * (y + 1) := by ring
          _ ≤ d * d := Nat.mul_le_mul_left d hy
      have hdiv : (d * y + (d - 1 - x)) / d = y := by
        rw [Nat.mul_add_div (by omega), Nat.div_eq_of_lt (by omega), add_zero]
      have hmod : (d * y + (d - 1 - x)) % d = d - 1 - x := by
        rw [Nat.mul_add_mod, Nat.mod_eq_of_lt (by omega)]
      rw [hdiv, hmod, decide_eq_true hlt, Bool.true_and]
      congr 2
      · congr 1; omega
      · omega

/-! ## The view -/

/-- An affine view of the paper: the point `o` is where the origin of the paper appears, `e1` and `e2`
are the images of one centimetre along the two axes. -/
noncomputable def affine (o e1 e2 p : P2) : P2 :=
  (o.1 + p.1 * e1.1 + p.2 * e2.1, o.2 + p.1 * e1.2 + p.2 * e2.2)

/-- The corners of a printed tag, in centimetres, from the lower left one counterclockwise. -/
noncomputable def printedCorner (t s : ℝ) (X Y : ℕ) (j : Fin 4) : P2 :=
  (X * (1 + s) * t + t * ![0, 1, 1, 0] j, Y * (1 + s) * t + t * ![0, 0, 1, 1] j)

/-- The corners of the square of the homography. -/
noncomputable def unitCorner : Fin 4 → P2 := ![(-1, -1), (1, -1), (1, 1), (-1, 1)]

open Classical in
/-- The image shows a point of the paper in its colour: the pixel whose square it falls on is inside the
image, and has the black level where the paper is black and the white level elsewhere. -/
def ShowsAt (img : Image) (V : P2 → P2) (rs : List Rect) (b w : ℝ) (p : P2) : Prop :=
  ∃ n m : ℤ, (n : ℝ) - 1 / 2 ≤ (V p).1 ∧ (V p).1 < n + 1 / 2 ∧ (m : ℝ) - 1 / 2 ≤ (V p).2 ∧
    (V p).2 < m + 1 / 2 ∧ 0 ≤ n ∧ n < img.width ∧ 0 ≤ m ∧ m < img.height ∧
    img.px n m = if Black rs p then b else w

theorem toPixel_eq {v : ℝ} {n : ℤ} (h0 : 0 ≤ n) (h1 : (n : ℝ) - 1 / 2 ≤ v) (h2 : v < n + 1 / 2) :
    toPixel v = n := by
  have : (0 : ℝ) ≤ n := by exact_mod_cast h0
  rw [toPixel, if_pos (by linarith), Int.floor_eq_iff]
  constructor <;> linarith

theorem interpolate_view {t s : ℝ} {dd X Y : ℕ} (hdd : 0 < dd) {o e1 e2 : P2} {q : Fin 4 → P2} {k : Fin 4}
    (hq : ∀ i, q i = affine o e1 e2 (printedCorner t s X Y (i + k))) (ix iy : ℤ) :
    interpolate01 q (((ix : ℝ) + 1 / 2) / dd) (((iy : ℝ) + 1 / 2) / dd) =
      affine o e1 e2 (centre t s dd X Y (rotCell dd k (ix, iy)).1 (rotCell dd k (ix, iy)).2) := by
  have hD : (dd : ℝ) ≠ 0 := by positivity
  have h0 := hq 0
  have h1 := hq 1
  have h2 := hq 2
  have h3 := hq 3
  fin_cases k
  · simp [printedCorner, affine] at h0 h1 h2 h3
    simp only [interpolate01, interpolate, h0, h1, h2, h3, affine, centre, rotCell]
    refine Prod.ext ?_ ?_ <;> simp only <;> field_simp <;> ring
  · simp [printedCorner, affine] at h0 h1 h2 h3
    simp only [interpolate01, interpolate, h0, h1, h2, h3, affine, centre, rotCell]
    refine Prod.ext ?_ ?_ <;> simp only <;> push_cast <;> field_simp <;> ring
  · simp [printedCorner, affine] at h0 h1 h2 h3
    simp only [interpolate01, interpolate, h0, h1, h2, h3, affine, centre, rotCell]
    refine Prod.ext ?_ ?_ <;> simp only <;> push_cast <;> field_simp <;> ring
  · simp [printedCorner, affine] at h0 h1 h2 h3
    simp only [interpolate01, interpolate, h0, h1, h2, h3, affine, centre, rotCell]
    refine Prod.ext ?_ ?_ <;> simp only <;> push_cast <;> field_simp <;> ring

theorem sample_view {img : Image} {q : Fin 4 → P2} {V : P2 → P2} {rs : List Rect} {b w x y : ℝ} {p : P2}
    (hi : interpolate01 q x y = V p) (h : ShowsAt img V rs b w p) :
    sample img q x y = some (open Classical in if Black rs p then b else w) := by
  obtain ⟨n, m, a1, a2, a3, a4, h1, h2, h3, h4, h5⟩ := h
  simp only [sample, hi, toPixel_eq h1 a1 a2, toPixel_eq h3 a3 a4]
  rw [if_neg (by push Not; exact ⟨h1, h2, h3, h4⟩), h5]

/-! ## Reading the code -/

set_option maxHeartbeats 1000000 in
/-- What is read from a tag that the quadrilateral frames, starting at corner `k`: the code turned `k`
times. -/
theorem readCode_tag {d code : ℕ} {img : Image} {q : Fin 4 → P2} {b w : ℝ} {k : ℕ} (hd : 0 < d)
    (hd64 : d * d ≤ 64) (hbw : b < w)
    (hval : ∀ ix iy : ℤ, -1 ≤ ix → ix ≤ (2 * 2 + d : ℕ) → -1 ≤ iy → iy ≤ (2 * 2 + d : ℕ) →
      sample img q (((ix : ℝ) + 1 / 2) / (2 * 2 + d : ℕ)) (((iy : ℝ) + 1 / 2) / (2 * 2 + d : ℕ)) =
        some (open Classical in
          if CellBlack d 2 code (rotCell (2 * 2 + d : ℕ) k (ix, iy)).1
            (rotCell (2 * 2 + d : ℕ) k (ix, iy)).2 then b else w)) :
    ∃ r, readCode d 2 img q = some r ∧ r < 2 ^ (d * d) ∧
      ∀ i, i < d * d → pattern r i = turns d k (pattern code) i := by
  classical
  obtain ⟨dd, hdd⟩ : ∃ dd, dd = 2 * 2 + d := ⟨_, rfl⟩
  rw [← hdd] at hval
  have hthr := fun x y => threshold (dd := dd) (by omega) (img := img) (q := q) hbw hval
    (by
      intro ix iy hr
      have hcor := rotCell_corner dd k (ix, iy)
      simp only at hcor
      by_cases hc : (ix = -1 ∨ ix = dd) ∧ (iy = -1 ∨ iy = dd)
      · rw [if_pos hc, if_pos]
        left
        rw [← hdd]
        exact hcor.mpr hc
      · rw [if_neg hc, if_neg]
        rintro (h | ⟨h1, h2, h3, h4, _⟩)
        · rw [← hdd] at h; exact hc (hcor.mp h)
        · rw [← hdd] at h2 h4
          have hring : iy = -1 ∨ iy = dd ∨ ix = -1 ∨ ix = dd := by
            by_contra hn
            unfold ring at hr
            rw [if_neg hn] at hr
            split at hr
            · cases hr
            · cases hr
          have hedge := (rotCell_edge dd k (ix, iy) (fun z => z = -1 ∨ z = dd) (by intro z; omega)).mpr
            (by
            rcases hring with h | h | h | h
            · exact Or.inr (Or.inl h)
            · exact Or.inr (Or.inr h)
            · exact Or.inl (Or.inl h)
            · exact Or.inl (Or.inr h))
          omega)
    (by
      intro ix iy h1 h2 h3 h4 hr
      rw [if_pos]
      right
      have hn : ¬ (iy = -1 ∨ iy = dd ∨ ix = -1 ∨ ix = dd) := by
        intro hn
        unfold ring at hr
        rw [if_pos hn] at hr
        cases hr
      have hring : iy = 0 ∨ iy = (dd : ℤ) - 1 ∨ ix = 0 ∨ ix = (dd : ℤ) - 1 := by
        by_contra hn'
        unfold ring at hr
        rw [if_neg hn, if_neg hn'] at hr
        cases hr
      have hedge := (rotCell_edge dd k (ix, iy) (fun z => z = 0 ∨ z = (dd : ℤ) - 1) (by intro z; omega)).mpr
        (by
            rcases hring with h | h | h | h
            · exact Or.inr (Or.inl h)
            · exact Or.inr (Or.inr h)
            · exact Or.inl (Or.inl h)
            · exact Or.inl (Or.inr h))
      obtain ⟨r1, r2, r3, r4⟩ := rotCell_range dd 0 (dd - 1) (by ring) k (ix, iy) (by simp only; omega)
        (by simp only; omega) (by simp only; omega) (by simp only; omega)
      rw [← hdd]
      refine ⟨r1, by omega, r3, by omega, ?_⟩
      omega) x y
  obtain ⟨thr, hthr'⟩ : ∃ thr : ℝ → ℝ → ℝ, thr = fun x y : ℝ =>
    (gray (ringObs dd img q false) x y + gray (ringObs dd img q true) x y) * (1 / 2) := ⟨_, rfl⟩
  have hb : ∀ x y, b < thr x y := fun x y => by rw [hthr']; exact (hthr x y).1
  have hw : ∀ x y, thr x y < w := fun x y => by rw [hthr']; exact (hthr x y).2
  -- one cell
  have hcell : ∀ iy, iy < d → ∀ ix, ix < d → ∀ a : ℕ,
      readCell 2 dd img q thr iy (false, a % 2 ^ 64) ix =
        (false, (2 * a + (turns d k (pattern code) (d * iy + (d - 1 - ix))).toNat) % 2 ^ 64) := by
    intro iy hiy ix hix a
    have hv := hval (2 + ix) (2 + iy) (by omega) (by omega) (by omega) (by omega)
    have hv' : sample img q ((((2 : ℕ) : ℝ) + ix + 1 / 2) / dd) ((((2 : ℕ) : ℝ) + iy + 1 / 2) / dd) =
        some (if CellBlack d 2 code (rotCell (dd : ℕ) k (2 + ix, 2 + iy)).1
          (rotCell (dd : ℕ) k (2 + ix, 2 + iy)).2 then b else w) := by
      rw [← hv]; push_cast; rfl
    have hs := rotCell_shift d 2 k ix iy
    have hdd' : (dd : ℤ) = 2 * 2 + d := by omega
    rw [← hdd'] at hs
    obtain ⟨x', y', g1, g2, g3, g4⟩ := turns_cell k (pattern code) ix iy hix hiy
    rw [g3] at hs
    rw [hs] at hv'
    rw [g4]
    unfold readCell
    simp only [hv']
    have hcb : CellBlack d 2 code (2 + x') (2 + y') ↔ pattern code (d * y' + (d - 1 - x')) = false := by
      unfold CellBlack
      have t1 : ((2 : ℤ) + x' - (2 : ℕ)).toNat = x' := by omega
      have t2 : ((2 : ℤ) + y' - (2 : ℕ)).toNat = y' := by omega
      rw [t1, t2]
      constructor
      · rintro (h | ⟨_, _, _, _, h | h | h | h | h⟩)
        · exfalso; omega
        · exfalso; omega
        · exfalso; omega
        · exfalso; omega
        · exfalso; omega
        · exact h
      · intro h
        exact Or.inr ⟨by omega, by omega, by omega, by omega, Or.inr (Or.inr (Or.inr (Or.inr h)))⟩
    have hmod : ∀ c : ℕ, c ≤ 1 → 2 * (a % 2 ^ 64) % 2 ^ 64 + c = (2 * a + c) % 2 ^ 64 := by
      intro c hc; omega
    by_cases hbit : pattern code (d * y' + (d - 1 - x')) = false
    · rw [if_pos (hcb.mpr hbit), if_neg (not_lt.mpr (hb _ _).le), hbit, hmod 0 (by omega)]; rfl
    · rw [if_neg (fun h => hbit (hcb.mp h)), if_pos (hw _ _), Bool.eq_true_of_not_eq_false hbit,
        hmod 1 (by omega)]; rfl
  -- all cells
  have hrow : ∀ iy, iy < d → ∀ a : ℕ,
      (List.range d).foldl (readCell 2 dd img q thr iy) (false, a % 2 ^ 64) =
        (false, ((List.range d).foldl (fun a ix =>
          2 * a + (turns d k (pattern code) (d * iy + (d - 1 - ix))).toNat) a) % 2 ^ 64) := by
    intro iy hiy a
    exact foldl_sim (fun a : ℕ => (false, a % 2 ^ 64)) (readCell 2 dd img q thr iy) _ _
      (fun a ix hix => hcell iy hiy ix (List.mem_range.mp hix) a) a
  have hall := foldl_sim (fun a : ℕ => (false, a % 2 ^ 64))
    (fun s iy => (List.range d).foldl (readCell 2 dd img q thr iy) s)
    (fun a iy => (List.range d).foldl (fun a ix =>
          2 * a + (turns d k (pattern code) (d * iy + (d - 1 - ix))).toNat) a)
    (List.range d).reverse
    (fun a iy hiy => hrow iy (List.mem_range.mp (List.mem_reverse.mp hiy)) a) 0
  obtain ⟨r, hr⟩ : ∃ r, r = (List.range d).reverse.foldl (fun a iy => (List.range d).foldl (fun a ix =>
          2 * a + (turns d k (pattern code) (d * iy + (d - 1 - ix))).toNat) a) 0 := ⟨_, rfl⟩
  rw [← hr] at hall
  have hbits : ∀ i, r.testBit i = if i < d * d then
      turns d k (pattern code) (d * (i / d) + (d - 1 - (d - 1 - i % d))) else false := by
    intro i
    rw [hr, rows_testBit (fun iy ix => turns d k (pattern code) (d * iy + (d - 1 - ix))) d d 0 i hd]
    simp
  have hrlt : r < 2 ^ (d * d) := by
    refine Nat.lt_pow_two_of_testBit r fun i hi => ?_
    rw [hbits, if_neg (by omega)]
  have hr64 : r % 2 ^ 64 = r := Nat.mod_eq_of_lt (lt_of_lt_of_le hrlt (Nat.pow_le_pow_right (by norm_num) hd64))
  refine ⟨r, ?_, hrlt, ?_⟩
  · unfold readCode
    simp only [← hdd, ← hthr']
    have h0 : ((false, 0) : Bool × ℕ) = (false, 0 % 2 ^ 64) := rfl
    rw [h0, hall, hr64]
    rfl
  · intro i hi
    rw [pattern, hbits, if_pos hi]
    congr 1
    have h1 : i % d < d := Nat.mod_lt _ hd
    have h2 : d - 1 - (d - 1 - i % d) = i % d := by omega
    rw [h2]
    exact Nat.div_add_mod i d

/-! ## The corners -/

theorem rotatePoint_corner (r : Fin 4) : rotatePoint r (-1, -1) = unitCorner r := by
  have h3 : (3 : ℝ) * Real.pi / 2 = Real.pi + Real.pi / 2 := by ring
  have h2 : (2 : ℝ) * Real.pi / 2 = Real.pi := by ring
  fin_cases r
  · simp [rotatePoint, unitCorner]
  · simp [rotatePoint, unitCorner]
  · simp [rotatePoint, unitCorner, h2]
  · simp [rotatePoint, unitCorner, h3, Real.cos_add, Real.sin_add]

theorem dist2_self (p : P2) : dist2 p p = 0 := by simp [dist2]

theorem dist2_pos {p r : P2} (h : p ≠ r) : 0 < dist2 p r := by
  unfold dist2
  apply Real.sqrt_pos.mpr
  by_contra hn
  have h1 := mul_self_nonneg (p.1 - r.1)
  have h2 := mul_self_nonneg (p.2 - r.2)
  have e1 : p.1 - r.1 = 0 := mul_self_eq_zero.mp (by linarith)
  have e2 : p.2 - r.2 = 0 := mul_self_eq_zero.mp (by linarith)
  exact h (Prod.ext (by linarith) (by linarith))

theorem nearest_self {q : Fin 4 → P2} (hinj : Function.Injective q) (r : Fin 4) : nearest q (q r) = r := by
  have hp : ∀ i, i ≠ r → 0 < dist2 (q r) (q i) := fun i hi => dist2_pos fun h => hi (hinj h).symm
  have h0 := dist2_self (q r)
  have hn : ∀ i x, x = 0 → ¬ dist2 (q r) (q i) < x := by
    intro i x hx; rw [hx]; exact not_lt.mpr (Real.sqrt_nonneg _)
  unfold nearest
  simp only [List.foldl_cons, List.foldl_nil]
  fin_cases r
  · simp only [Fin.zero_eta] at *
    simp [hn _ _ h0]
  · simp only [Fin.mk_one] at *
    have := hp 0 (by decide)
    simp [h0, this, hn _ _ rfl]
  · have a0 := hp 0 (by decide)
    have a1 := hp 1 (by decide)
    have h0' : dist2 (q 2) (q 2) = 0 := h0
    have hn' : ∀ i, ¬ dist2 (q 2) (q i) < 0 := fun i => hn i 0 rfl
    change 0 < dist2 (q 2) (q 0) at a0
    change 0 < dist2 (q 2) (q 1) at a1
    by_cases c : dist2 (q 2) (q 1) < dist2 (q 2) (q 0) <;> simp [c, h0', a0, a1, hn']
  · have a0 := hp 0 (by decide)
    have a1 := hp 1 (by decide)
    have a2 := hp 2 (by decide)
    have h0' : dist2 (q 3) (q 3) = 0 := h0
    change 0 < dist2 (q 3) (q 0) at a0
    change 0 < dist2 (q 3) (q 1) at a1
    change 0 < dist2 (q 3) (q 2) at a2
    by_cases c : dist2 (q 3) (q 1) < dist2 (q 3) (q 0)
    · by_cases c' : dist2 (q 3) (q 2) < dist2 (q 3) (q 1) <;> simp [c, c', h0', a0, a1, a2]
    · by_cases c' : dist2 (q 3) (q 2) < dist2 (q 3) (q 0) <;> simp [c, c', h0', a0, a1, a2]

theorem affine_inj {o e1 e2 : P2} (h : e1.1 * e2.2 - e1.2 * e2.1 ≠ 0) :
    Function.Injective (affine o e1 e2) := by
  intro p r hpr
  have h1 := congrArg Prod.fst hpr
  have h2 := congrArg Prod.snd hpr
  simp only [affine] at h1 h2
  have a1 : (p.1 - r.1) * (e1.1 * e2.2 - e1.2 * e2.1) = 0 := by linear_combination h1 * e2.2 - h2 * e2.1
  have a2 : (p.2 - r.2) * (e1.1 * e2.2 - e1.2 * e2.1) = 0 := by linear_combination h2 * e1.1 - h1 * e1.2
  have b1 := (mul_eq_zero.mp a1).resolve_right h
  have b2 := (mul_eq_zero.mp a2).resolve_right h
  exact Prod.ext (by linarith) (by linarith)

theorem printedCorner_inj {t s : ℝ} (ht : 0 < t) (X Y : ℕ) : Function.Injective (printedCorner t s X Y) := by
  intro i j h
  have h1 := congrArg Prod.fst h
  have h2 := congrArg Prod.snd h
  simp only [printedCorner, add_right_inj, mul_right_inj' (ne_of_gt ht)] at h1 h2
  fin_cases i <;> fin_cases j <;> simp at h1 h2 <;> rfl

/-! ## C133 -/

/-- **C133** (partial: an affine view, one black and one white level): on every board that is drawn,
each tag that is not left blank is recognised.  The quadrilateral may start at any of the four corners.
If the image shows the centres of the cells of the tag, and of the cells around it, in their colours,
the result is a good detection with the identifier the tag has on the board, and its corners are where
the printed corners appear: lower left, lower right, upper right, upper left. -/
theorem C133_reading_partial {cols rows : ℕ} {a s : ℝ} {skip : List ℕ} {rs : List Rect} (ha : 0 < a)
    (hs : 1 / 20 < s) (hrs : boardRects t36h11 6 cols rows a s skip = .ok rs)
    {X Y : ℕ} (hX : X < cols) (hY : Y < rows) (hid : cols * Y + X ∉ skip)
    {o e1 e2 : P2} (hV : e1.1 * e2.2 - e1.2 * e2.1 ≠ 0) {q : Fin 4 → P2} {k : Fin 4}
    (hq : ∀ i, q i = affine o e1 e2 (printedCorner (a * 100) s X Y (i + k)))
    {hom : P2 → P2} (hhom : ∀ i, hom (unitCorner i) = q i) {img : Image} {b w : ℝ} (hbw : b < w)
    (himg : ∀ ix iy : ℤ, -1 ≤ ix → ix ≤ 10 → -1 ≤ iy → iy ≤ 10 →
      ShowsAt img (affine o e1 e2) rs b w (centre (a * 100) s 10 X Y ix iy)) {e : ℤ} (he : 0 ≤ e) :
    decodeQuad ⟨6, e, t36h11⟩ 2 img q hom =
      .ok (some ⟨(cols * Y + X : ℕ), true,
        fun j => affine o e1 e2 (printedCorner (a * 100) s X Y j)⟩) := by
  classical
  obtain ⟨hs0, hs1, hlen⟩ := boardRects_some hrs
  have ht : 0 < a * 100 := by positivity
  obtain ⟨rs', h1, h2⟩ := boardRects_ok (codes := t36h11) (d := 6) (cols := cols) (rows := rows) (a := a)
    (s := s) (skip := skip) hs0 hs1 hlen
  rw [hrs] at h1
  injection h1 with h1
  subst h1
  have hidl := hlen Y hY X hX hid
  have hm := Tag.C66_distance_partial.2.2.2.2
  obtain ⟨code, hcode⟩ : ∃ code, code = t36h11.getD (cols * Y + X) 0 := ⟨_, rfl⟩
  have hclt : code < 2 ^ (6 * 6) := by
    rw [hcode, List.getD_eq_getElem _ _ hidl]
    exact hm.1 _ (List.getElem_mem hidl)
  have hk : (k : ℕ) < 4 := k.2
  obtain ⟨r, hr1, hr2, hr3⟩ := readCode_tag (d := 6) (code := code) (img := img) (q := q) (b := b) (w := w)
    (k := k) (by norm_num) (by norm_num) hbw (by
      intro ix iy g1 g2 g3 g4
      obtain ⟨c1, c2, c3, c4⟩ := rotCell_range 10 (-1) 10 (by norm_num) k (ix, iy) g1 (by simpa using g2) g3
        (by simpa using g4)
      have hb := board_cell (codes := t36h11) (d := 6) ht (by norm_num; linarith) h2 hX hY hid
        (rotCell 10 k (ix, iy)).1 (rotCell 10 k (ix, iy)).2 c1 (by simpa using c2) c3 (by simpa using c4)
      have := sample_view (interpolate_view (dd := 10) (by norm_num) hq ix iy) (himg _ _ c1 c2 c3 c4)
      rw [← hcode] at hb
      have e10 : ((10 : ℕ) : ℤ) = 10 := rfl
      have ee : 2 * 2 + 6 = 10 := rfl
      simp only [ee] at hb ⊢
      rw [e10] at this ⊢
      rw [this]
      by_cases hB : Black rs (centre (a * 100) s 10 X Y (rotCell 10 k (ix, iy)).1 (rotCell 10 k (ix, iy)).2)
      · rw [if_pos hB, if_pos (hb.mp hB)]
      · rw [if_neg hB, if_neg fun h => hB (hb.mpr h)])
  have hin := Tag.inside_pattern (d := 6) hclt
  have hpat : pattern r = turns 6 k (pattern code) := by
    funext i
    by_cases hi : i < 6 * 6
    · exact hr3 i hi
    · rw [Tag.inside_pattern hr2 i hi, Tag.inside_turns hin k i hi]
  obtain ⟨rot, hrot⟩ : ∃ rot : Fin 4, rot = -k := ⟨_, rfl⟩
  have hturn : turns 6 rot (pattern r) = pattern code := by
    rw [hpat, ← Tag.turns_add]
    by_cases hk0 : k = 0
    · subst hk0; subst hrot; rfl
    · have : (rot : ℕ) + k = 4 := by
        have hall : ∀ k : Fin 4, k ≠ 0 → ((-k : Fin 4) : ℕ) + k = 4 := by decide
        rw [hrot]
        exact hall k hk0
      rw [this, Tag.turns_four hin]
  obtain ⟨det, d1, d2, d3, _, _, d6⟩ := Tag.C15_corrects ⟨6, e, t36h11⟩ 0 r (cols * Y + X) rot (by norm_num)
    hr2 hm.1 (fun i j k hi hj hk hne => by
      exact lt_of_lt_of_le (by norm_num) (hm.2 i j k hi hj hk hne)) hidl rot.2 (by
      have : diff (turns 6 rot (pattern r)) (pattern (t36h11.getD (cols * Y + X) 0)) = 0 := by
        rw [hturn, ← hcode]
        simp [diff]
      exact this.le)
  have hgood := d6 (by exact_mod_cast he)
  have hqi : Function.Injective q := by
    intro i j h
    rw [hq, hq] at h
    have := printedCorner_inj ht X Y (affine_inj hV h)
    exact add_right_cancel this
  have hr1' : readCode (Tag.Family.dimension ⟨6, e, t36h11⟩) 2 img q = some r := hr1
  unfold decodeQuad
  rw [hr1']
  simp only [d1, Out.ok_bind, hgood, if_true, d3]
  rw [rotatePoint_corner, hhom, nearest_self hqi, d2]
  simp only [Out.pure_eq, Out.ok.injEq, Option.some.injEq]
  congr 1
  funext j
  rw [hq]
  have hall : ∀ j k : Fin 4, j + -k + k = j := by decide
  rw [hrot, hall]

/-- **C133**: the printed corners are, in centimetres, the corners the target assumes for the tag, in
metres. -/
theorem C133_printed_corners {cols : ℕ} {X Y : ℕ} (hX : X < cols) (a s : ℝ) (j : Fin 4) :
    ((printedCorner (a * 100) s X Y j).1, (printedCorner (a * 100) s X Y j).2, (0 : ℝ)) =
      (100 * (Target.tagCorner cols a s (cols * Y + X) j).1,
        100 * (Target.tagCorner cols a s (cols * Y + X) j).2.1,
        100 * (Target.tagCorner cols a s (cols * Y + X) j).2.2) := by
  have h1 : (cols * Y + X) % cols = X := by rw [Nat.mul_add_mod, Nat.mod_eq_of_lt hX]
  have h2 : (cols * Y + X) / cols = Y := by
    rw [Nat.mul_add_div (by omega), Nat.div_eq_of_lt hX, add_zero]
  unfold Target.tagCorner printedCorner
  rw [h1, h2]
  refine Prod.ext ?_ (Prod.ext ?_ ?_)
  · fin_cases j <;> simp [Target.dx] <;> ring
  · fin_cases j <;> simp [Target.dy] <;> ring
  · simp

/-- A detection of tag `(X, Y)` of a board in an image that shows it. -/
def SeenTag (cols rows : ℕ) (a s : ℝ) (skip : List ℕ) (rs : List Rect) (o e1 e2 : P2) (img : Image)
    (b w : ℝ) (e : ℤ) (det : Det) : Prop :=
  ∃ X Y, X < cols ∧ Y < rows ∧ cols * Y + X ∉ skip ∧ ∃ (q : Fin 4 → P2) (k : Fin 4) (hom : P2 → P2),
    (∀ i, q i = affine o e1 e2 (printedCorner (a * 100) s X Y (i + k))) ∧
    (∀ i, hom (unitCorner i) = q i) ∧
    (∀ ix iy : ℤ, -1 ≤ ix → ix ≤ 10 → -1 ≤ iy → iy ≤ 10 →
      ShowsAt img (affine o e1 e2) rs b w (centre (a * 100) s 10 X Y ix iy)) ∧
    decodeQuad ⟨6, e, t36h11⟩ 2 img q hom = .ok (some det)

/-- **C133** (partial, as above): from the printed board to the target's observation.  The target is
built with the numbers the board was printed with.  When the extraction succeeds, each corner of each
usable tag is stored with a target point, and the stored image point is where the place of that target
point on the paper appears, before the subpixel refinement. -/
theorem C133_observation_partial {cols rows : ℕ} {a s : ℝ} {skip : List ℕ} {rs : List Rect} (ha : 0 < a)
    (hs : 1 / 20 < s) (hrs : boardRects t36h11 6 cols rows a s skip = .ok rs)
    {o e1 e2 : P2} (hV : e1.1 * e2.2 - e1.2 * e2.1 ≠ 0) {img : Image} {b w : ℝ} (hbw : b < w)
    {e : ℤ} (he : 0 ≤ e) {dets : List Det}
    (hdets : ∀ det ∈ dets, SeenTag cols rows a s skip rs o e1 e2 img b w e det)
    {mem : List Target.P3} {t : Target.Target} (hm : mem.length = 2 * rows * (2 * cols))
    (ht : Target.aprilgrid rows cols a s mem = .ok t) (opt : Target.AprilOptions) (W H : ℝ)
    (refine' : P2 → P2) (pts0 : List P2) (hp0 : pts0.length = t.size) {pts : List P2} {obs : List Bool}
    (hres : Target.aprilObservation t opt W H refine' dets pts0 [] = .ok (.done pts obs)) :
    ∀ det ∈ Target.usable opt W H (rows * cols) dets, ∀ j, ∃ n x y, t.point n = .ok (x, y, 0) ∧
      det.p j = affine o e1 e2 (100 * x, 100 * y) ∧
      pts[n]? = some (Target.corner opt refine' (affine o e1 e2 (100 * x, 100 * y))) := by
  have hform : ∀ det ∈ dets, ∃ X Y, X < cols ∧ Y < rows ∧ det.id = (cols * Y + X : ℕ) ∧
      ∀ j, det.p j = affine o e1 e2 (printedCorner (a * 100) s X Y j) := by
    intro det hd
    obtain ⟨X, Y, hX, hY, hid, q, k, hom, h1, h2, h3, h4⟩ := hdets det hd
    rw [C133_reading_partial ha hs hrs hX hY hid hV h1 h2 hbw h3 he] at h4
    injection h4 with h4
    injection h4 with h4
    subst h4
    exact ⟨X, Y, hX, hY, rfl, fun _ => rfl⟩
  obtain ⟨res, c1, _, _, c4⟩ := Target.C89_extraction_partial hm ht opt W H refine' dets
    (by
      intro d hd _
      obtain ⟨X, Y, _, _, h, _⟩ := hform d hd
      rw [h]; positivity) pts0 hp0
  rw [hres] at c1
  injection c1 with c1
  obtain ⟨_, _, c5, _⟩ := c4 pts obs c1.symm
  intro det hdet j
  obtain ⟨n, _, n2, n3, _⟩ := c5 det hdet j
  have hmem : det ∈ dets := (List.mem_filter.mp hdet).1
  obtain ⟨X, Y, hX, hY, hid, hp⟩ := hform det hmem
  have hpc := C133_printed_corners hX (Y := Y) a s j
  have hidn : det.id.toNat = cols * Y + X := by rw [hid]; rfl
  rw [hidn] at n2
  have hz : (Target.tagCorner cols a s (cols * Y + X) j).2.2 = 0 := rfl
  have e1' : printedCorner (a * 100) s X Y j = (100 * (Target.tagCorner cols a s (cols * Y + X) j).1,
      100 * (Target.tagCorner cols a s (cols * Y + X) j).2.1) :=
    Prod.ext (congrArg (fun z : ℝ × ℝ × ℝ => z.1) hpc) (congrArg (fun z : ℝ × ℝ × ℝ => z.2.1) hpc)
  refine ⟨n, (Target.tagCorner cols a s (cols * Y + X) j).1,
    (Target.tagCorner cols a s (cols * Y + X) j).2.1, n2, ?_, ?_⟩
  · rw [hp j, e1']
  · rw [n3, hp j, e1']

/-! ## Cases -/

/-- A board of two tags is drawn, and there is a view and an image that show its second tag: ten pixels
per centimetre, upside down as in an image. -/
example : ∃ rs, boardRects t36h11 6 2 1 (1 / 10) (3 / 10) [] = .ok rs ∧
    ∃ img : Image, ∀ ix iy : ℤ, -1 ≤ ix → ix ≤ 10 → -1 ≤ iy → iy ≤ 10 →
      ShowsAt img (affine (100, 300) (10, 0) (0, -10)) rs 0 1 (centre (1 / 10 * 100) (3 / 10) 10 1 0 ix iy) := by
  classical
  obtain ⟨rs, hrs⟩ := (C133_drawn t36h11 6 2 1 (1 / 10) (3 / 10) []).mpr
    ⟨by norm_num, by norm_num, fun y hy x hx _ => by
      have : t36h11.length = 587 := by decide +kernel
      omega⟩
  refine ⟨rs, hrs, ⟨1000, 1000, fun x y =>
    if Black rs (((x : ℝ) - 100) / 10, (300 - (y : ℝ)) / 10) then 0 else 1⟩, ?_⟩
  intro ix iy h1 h2 h3 h4
  have e1 : (affine (100, 300) (10, 0) (0, -10) (centre (1 / 10 * 100) (3 / 10) 10 1 0 ix iy)).1 =
      ((235 + 10 * ix : ℤ) : ℝ) := by
    simp [affine, centre]; ring
  have e2 : (affine (100, 300) (10, 0) (0, -10) (centre (1 / 10 * 100) (3 / 10) 10 1 0 ix iy)).2 =
      ((295 - 10 * iy : ℤ) : ℝ) := by
    simp [affine, centre]; ring
  refine ⟨235 + 10 * ix, 295 - 10 * iy, by rw [e1]; linarith, by rw [e1]; linarith, by rw [e2]; linarith,
    by rw [e2]; linarith, by omega, by simp only; omega, by omega, by simp only; omega, ?_⟩
  have hb : ((((235 + 10 * ix : ℤ) : ℝ) - 100) / 10, (300 - ((295 - 10 * iy : ℤ) : ℝ)) / 10) =
      centre (1 / 10 * 100) (3 / 10) 10 1 0 ix iy := by
    refine Prod.ext ?_ ?_ <;> simp [centre] <;> ring
  simp only [hb]

/-- A perspective view of the paper: points further to the right are smaller. -/
noncomputable def perspective (p : P2) : P2 := (p.1 / (1 + p.1), p.2 / (1 + p.1))

/-- **C133** fails in general: the detector places the cells by bilinear interpolation of the corners,
which is not how a plane appears under perspective.  In this view of a tag of one centimetre, all of
which is in front of the camera, the cell in column 4, row 4 is read at a point that lies in column 2 of
the paper. -/
theorem C133_perspective_counterexample :
    ∃ p : P2, interpolate01 (fun j => perspective (printedCorner 1 (3 / 10) 0 0 j))
        ((4 + 1 / 2) / 10) ((4 + 1 / 2) / 10) = perspective p ∧
      2 / 10 < p.1 ∧ p.1 < 3 / 10 ∧ 4 / 10 < p.2 ∧ p.2 < 5 / 10 ∧
      (∀ p' : P2, -1 < p'.1 → perspective p' = perspective p → p' = p) := by
  refine ⟨(9 / 31, 9 / 20), ?_, by norm_num, by norm_num, by norm_num, by norm_num, ?_⟩
  · simp [interpolate01, interpolate, perspective, printedCorner]
    constructor <;> norm_num
  · rintro ⟨x, y⟩ hx h
    simp only at hx
    have h1 := congrArg Prod.fst h
    have h2 := congrArg Prod.snd h
    simp only [perspective] at h1 h2
    have hpos : (0 : ℝ) < 1 + x := by linarith
    rw [div_eq_div_iff (ne_of_gt hpos) (by norm_num)] at h1 h2
    have ex : x = 9 / 31 := by linarith
    subst ex
    refine Prod.ext rfl ?_
    simp only
    linarith

end Kalibr.Print
