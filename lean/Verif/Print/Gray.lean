import Verif.Print.Model
import Mathlib.Algebra.BigOperators.Intervals
import Verif.Tactics

/-!
# The grey models and the threshold
-/

namespace Kalibr.Print

open Kalibr.Target (P2)

/-- When the observations fit a constant, the model is that constant, in every branch. -/
theorem gray_const {obs : List (ℝ × ℝ × ℝ)} {c : ℝ} (hne : obs ≠ [])
    (h : ∀ i, rhs obs i = c * gram obs i 3) (x y : ℝ) : gray obs x y = c := by
  have hfit : fit obs = ![0, 0, 0, c] := by
    unfold fit
    by_cases hc : 6 ≤ obs.length ∧ (gram obs).det ≠ 0
    · rw [if_pos hc]
      have hr : rhs obs = (gram obs).mulVec ![0, 0, 0, c] := by
        funext i
        rw [h i]
        simp [Matrix.mulVec, dotProduct, Fin.sum_univ_four, mul_comm]
      rw [hr, Matrix.mulVec_mulVec, Matrix.nonsing_inv_mul _ (isUnit_iff_ne_zero.mpr hc.2),
        Matrix.one_mulVec]
    · rw [if_neg hc]
      have hl : (obs.length : ℝ) ≠ 0 := by
        have := List.length_pos_iff.mpr hne
        positivity
      have h3 : gram obs 3 3 = obs.length := by
        simp [gram, basis]
      rw [h 3, h3, mul_div_assoc, div_self hl, mul_one]
  simp [gray, hfit]

/-- A weight symmetric about the middle of `[0, 1]` has its centre there. -/
theorem sum_mid {N : ℕ} {x h : ℕ → ℝ} (hx : ∀ n, n < N → x (N - 1 - n) = 1 - x n)
    (hh : ∀ n, n < N → h (N - 1 - n) = h n) :
    ∑ n ∈ Finset.range N, x n * h n = 1 / 2 * ∑ n ∈ Finset.range N, h n := by
  have h1 := Finset.sum_range_reflect (fun n => x n * h n) N
  have h2 : ∑ j ∈ Finset.range N, x (N - 1 - j) * h (N - 1 - j) =
      ∑ j ∈ Finset.range N, (h j - x j * h j) := by
    refine Finset.sum_congr rfl fun j hj => ?_
    rw [Finset.mem_range] at hj
    rw [hx j hj, hh j hj]; ring
  rw [h2, Finset.sum_sub_distrib] at h1
  linarith

/-- Coordinate of the `n`-th sample. -/
noncomputable def coord (dd n : ℕ) : ℝ := ((((n : ℤ) - 1 : ℤ) : ℝ) + 1 / 2) / dd

theorem coord_reflect {dd n : ℕ} (hdd : 0 < dd) (hn : n < dd + 2) :
    coord dd (dd + 2 - 1 - n) = 1 - coord dd n := by
  have hD : (dd : ℝ) ≠ 0 := by positivity
  unfold coord
  have e : ((dd + 2 - 1 - n : ℕ) : ℤ) = dd + 1 - n := by omega
  rw [e, eq_sub_iff_add_eq, ← add_div, div_eq_one_iff_eq hD]
  push_cast; ring

theorem sum_filterMap {α β : Type} (l : List α) (f : α → Option β) (F : β → ℝ) :
    ((l.filterMap f).map F).sum = (l.map fun a => (f a).elim 0 F).sum := by
  induction l with
  | nil => rfl
  | cons a l ih =>
    cases h : f a with
    | none => simp [h, ih]
    | some b => simp [h, ih]

theorem sum_flatMap {α β : Type} (l : List α) (f : α → List β) (F : β → ℝ) :
    ((l.flatMap f).map F).sum = (l.map fun a => ((f a).map F).sum).sum := by
  induction l with
  | nil => rfl
  | cons a l ih => simp [ih]

theorem sum_range_list (n : ℕ) (f : ℕ → ℝ) : ((List.range n).map f).sum = ∑ i ∈ Finset.range n, f i := by
  induction n with
  | zero => simp
  | succ n ih => rw [List.range_succ, Finset.sum_range_succ, ← ih]; simp

/-- A sum over the observations of one ring, when every sample is inside the image. -/
theorem ringObs_sum {dd : ℕ} {img : Image} {q : Fin 4 → P2} {val : ℤ → ℤ → ℝ}
    (hval : ∀ ix iy : ℤ, -1 ≤ ix → ix ≤ dd → -1 ≤ iy → iy ≤ dd →
      sample img q (((ix : ℝ) + 1 / 2) / dd) (((iy : ℝ) + 1 / 2) / dd) = some (val ix iy))
    (white : Bool) (F : ℝ × ℝ × ℝ → ℝ) :
    ((ringObs dd img q white).map F).sum = ∑ m ∈ Finset.range (dd + 2), ∑ n ∈ Finset.range (dd + 2),
      if ring dd ((n : ℤ) - 1) ((m : ℤ) - 1) = some white then
        F (coord dd n, coord dd m, val ((n : ℤ) - 1) ((m : ℤ) - 1)) else 0 := by
  rw [ringObs, sum_flatMap, sum_range_list]
  refine Finset.sum_congr rfl fun m hm => ?_
  rw [sum_filterMap, sum_range_list]
  refine Finset.sum_congr rfl fun n hn => ?_
  rw [Finset.mem_range] at hm hn
  have := hval ((n : ℤ) - 1) ((m : ℤ) - 1) (by omega) (by omega) (by omega) (by omega)
  simp only [this]
  by_cases hr : ring dd ((n : ℤ) - 1) ((m : ℤ) - 1) = some white
  · rw [if_pos hr, if_pos hr]; rfl
  · rw [if_neg hr, if_neg hr]; rfl

/-- A ring whose grey values are symmetric is modelled by their mean. -/
theorem gray_ring {dd : ℕ} (hdd : 2 ≤ dd) {img : Image} {q : Fin 4 → P2} {val : ℤ → ℤ → ℝ}
    (hval : ∀ ix iy : ℤ, -1 ≤ ix → ix ≤ dd → -1 ≤ iy → iy ≤ dd →
      sample img q (((ix : ℝ) + 1 / 2) / dd) (((iy : ℝ) + 1 / 2) / dd) = some (val ix iy))
    (white : Bool)
    (hsx : ∀ ix iy : ℤ, ring dd ix iy = some white → val (dd - 1 - ix) iy = val ix iy)
    (hsy : ∀ ix iy : ℤ, ring dd ix iy = some white → val ix (dd - 1 - iy) = val ix iy) (x y : ℝ) :
    ∃ W S : ℝ, 0 < W ∧ gray (ringObs dd img q white) x y = S / W ∧
      (W = ∑ m ∈ Finset.range (dd + 2), ∑ n ∈ Finset.range (dd + 2),
        if ring dd ((n : ℤ) - 1) ((m : ℤ) - 1) = some white then 1 else 0) ∧
      (S = ∑ m ∈ Finset.range (dd + 2), ∑ n ∈ Finset.range (dd + 2),
        if ring dd ((n : ℤ) - 1) ((m : ℤ) - 1) = some white then val ((n : ℤ) - 1) ((m : ℤ) - 1) else 0) := by
  obtain ⟨N, hN⟩ : ∃ N : ℕ, N = dd + 2 := ⟨_, rfl⟩
  have hsum := fun F => ringObs_sum hval white F
  rw [← hN] at hsum ⊢
  obtain ⟨I, hI⟩ : ∃ I : ℕ → ℕ → ℝ, I = fun n m : ℕ =>
      if ring dd ((n : ℤ) - 1) ((m : ℤ) - 1) = some white then (1 : ℝ) else 0 := ⟨_, rfl⟩
  obtain ⟨G, hG⟩ : ∃ G : ℕ → ℕ → ℝ, G = fun n m : ℕ =>
      if ring dd ((n : ℤ) - 1) ((m : ℤ) - 1) = some white then val ((n : ℤ) - 1) ((m : ℤ) - 1) else 0 :=
    ⟨_, rfl⟩
  have ringx : ∀ ix iy : ℤ, ring dd (dd - 1 - ix) iy = ring dd ix iy := by
    intro ix iy
    unfold ring
    have e1 : (iy = -1 ∨ iy = (dd : ℤ) ∨ (dd : ℤ) - 1 - ix = -1 ∨ (dd : ℤ) - 1 - ix = dd) ↔
        (iy = -1 ∨ iy = (dd : ℤ) ∨ ix = -1 ∨ ix = dd) := by omega
    have e2 : (iy = 0 ∨ iy = (dd : ℤ) - 1 ∨ (dd : ℤ) - 1 - ix = 0 ∨ (dd : ℤ) - 1 - ix = dd - 1) ↔
        (iy = 0 ∨ iy = (dd : ℤ) - 1 ∨ ix = 0 ∨ ix = dd - 1) := by omega
    simp only [e1, e2]
  have ringy : ∀ ix iy : ℤ, ring dd ix (dd - 1 - iy) = ring dd ix iy := by
    intro ix iy
    unfold ring
    have e1 : ((dd : ℤ) - 1 - iy = -1 ∨ (dd : ℤ) - 1 - iy = (dd : ℤ) ∨ ix = -1 ∨ ix = dd) ↔
        (iy = -1 ∨ iy = (dd : ℤ) ∨ ix = -1 ∨ ix = dd) := by omega
    have e2 : ((dd : ℤ) - 1 - iy = 0 ∨ (dd : ℤ) - 1 - iy = (dd : ℤ) - 1 ∨ ix = 0 ∨ ix = dd - 1) ↔
        (iy = 0 ∨ iy = (dd : ℤ) - 1 ∨ ix = 0 ∨ ix = dd - 1) := by omega
    simp only [e1, e2]
  have idx : ∀ n, n < N → (((N - 1 - n : ℕ) : ℤ) - 1) = dd - 1 - ((n : ℤ) - 1) := by
    intro n hn; omega
  have symI : ∀ n m, n < N → I (N - 1 - n) m = I n m := by
    intro n m hn; rw [hI]; simp only; rw [idx n hn, ringx]
  have symI' : ∀ n m, m < N → I n (N - 1 - m) = I n m := by
    intro n m hn; rw [hI]; simp only; rw [idx m hn, ringy]
  have symG : ∀ n m, n < N → G (N - 1 - n) m = G n m := by
    intro n m hn
    rw [hG]; simp only; rw [idx n hn, ringx]
    by_cases hr : ring dd ((n : ℤ) - 1) ((m : ℤ) - 1) = some white
    · rw [if_pos hr, if_pos hr, hsx _ _ hr]
    · rw [if_neg hr, if_neg hr]
  have symG' : ∀ n m, m < N → G n (N - 1 - m) = G n m := by
    intro n m hn
    rw [hG]; simp only; rw [idx m hn, ringy]
    by_cases hr : ring dd ((n : ℤ) - 1) ((m : ℤ) - 1) = some white
    · rw [if_pos hr, if_pos hr, hsy _ _ hr]
    · rw [if_neg hr, if_neg hr]
  have cr : ∀ n, n < N → coord dd (N - 1 - n) = 1 - coord dd n := by
    intro n hn; rw [hN] at hn ⊢; exact coord_reflect (by omega) hn
  -- moments of a symmetric weight
  have mom : ∀ H : ℕ → ℕ → ℝ, (∀ n m, n < N → H (N - 1 - n) m = H n m) →
      (∀ n m, m < N → H n (N - 1 - m) = H n m) →
      (∑ m ∈ Finset.range N, ∑ n ∈ Finset.range N, coord dd n * H n m =
        1 / 2 * ∑ m ∈ Finset.range N, ∑ n ∈ Finset.range N, H n m) ∧
      (∑ m ∈ Finset.range N, ∑ n ∈ Finset.range N, coord dd m * H n m =
        1 / 2 * ∑ m ∈ Finset.range N, ∑ n ∈ Finset.range N, H n m) ∧
      (∑ m ∈ Finset.range N, ∑ n ∈ Finset.range N, coord dd n * coord dd m * H n m =
        1 / 4 * ∑ m ∈ Finset.range N, ∑ n ∈ Finset.range N, H n m) := by
    intro H h1 h2
    have a1 : ∀ m, ∑ n ∈ Finset.range N, coord dd n * H n m = 1 / 2 * ∑ n ∈ Finset.range N, H n m :=
      fun m => sum_mid cr fun n hn => h1 n m hn
    have a2 : ∑ m ∈ Finset.range N, coord dd m * ∑ n ∈ Finset.range N, H n m =
        1 / 2 * ∑ m ∈ Finset.range N, ∑ n ∈ Finset.range N, H n m :=
      sum_mid cr fun m hm => Finset.sum_congr rfl fun n _ => h2 n m hm
    refine ⟨?_, ?_, ?_⟩
    · rw [Finset.sum_congr rfl fun m _ => a1 m, ← Finset.mul_sum]
    · rw [← a2]
      exact Finset.sum_congr rfl fun m _ => by rw [Finset.mul_sum]
    · have : ∀ m, ∑ n ∈ Finset.range N, coord dd n * coord dd m * H n m =
          coord dd m * (1 / 2 * ∑ n ∈ Finset.range N, H n m) := by
        intro m
        rw [← a1 m, Finset.mul_sum]
        exact Finset.sum_congr rfl fun n _ => by ring
      rw [Finset.sum_congr rfl fun m _ => this m]
      have e : ∀ m, coord dd m * (1 / 2 * ∑ n ∈ Finset.range N, H n m) =
          1 / 2 * (coord dd m * ∑ n ∈ Finset.range N, H n m) := fun m => by ring
      rw [Finset.sum_congr rfl fun m _ => e m, ← Finset.mul_sum, a2]; ring
  obtain ⟨i1, i2, i3⟩ := mom I symI symI'
  obtain ⟨g1, g2, g3⟩ := mom G symG symG'
  obtain ⟨W, hW⟩ : ∃ W : ℝ, W = ∑ m ∈ Finset.range N, ∑ n ∈ Finset.range N, I n m := ⟨_, rfl⟩
  obtain ⟨S, hS⟩ : ∃ S : ℝ, S = ∑ m ∈ Finset.range N, ∑ n ∈ Finset.range N, G n m := ⟨_, rfl⟩
  rw [← hW] at i1 i2 i3
  rw [← hS] at g1 g2 g3
  have I0 : ∀ n m, 0 ≤ I n m := by intro n m; rw [hI]; simp only; split <;> norm_num
  have hWpos : 0 < W := by
    rw [hW]
    refine Finset.sum_pos' (fun m _ => Finset.sum_nonneg fun n _ => I0 n m) ?_
    cases white
    · refine ⟨1, by simp; omega, Finset.sum_pos' (fun n _ => I0 n 1) ⟨1, by simp; omega, ?_⟩⟩
      rw [hI]
      have : ring dd (((1 : ℕ) : ℤ) - 1) (((1 : ℕ) : ℤ) - 1) = some false := by
        unfold ring
        rw [if_neg (by omega), if_pos (by omega)]
      simp only [this]; norm_num
    · refine ⟨0, by simp; omega, Finset.sum_pos' (fun n _ => I0 n 0) ⟨0, by simp; omega, ?_⟩⟩
      rw [hI]
      have : ring dd (((0 : ℕ) : ℤ) - 1) (((0 : ℕ) : ℤ) - 1) = some true := by
        unfold ring
        rw [if_pos (by omega)]
      simp only [this]; norm_num
  -- the sums of the observations
  have toI : ∀ f : ℝ × ℝ → ℝ, ((ringObs dd img q white).map fun o => f (o.1, o.2.1)).sum =
      ∑ m ∈ Finset.range N, ∑ n ∈ Finset.range N, f (coord dd n, coord dd m) * I n m := by
    intro f
    rw [hsum fun o => f (o.1, o.2.1), hI]
    refine Finset.sum_congr rfl fun m _ => Finset.sum_congr rfl fun n _ => ?_
    simp only
    split <;> simp
  have toG : ∀ f : ℝ × ℝ → ℝ, ((ringObs dd img q white).map fun o => f (o.1, o.2.1) * o.2.2).sum =
      ∑ m ∈ Finset.range N, ∑ n ∈ Finset.range N, f (coord dd n, coord dd m) * G n m := by
    intro f
    rw [hsum fun o => f (o.1, o.2.1) * o.2.2, hG]
    refine Finset.sum_congr rfl fun m _ => Finset.sum_congr rfl fun n _ => ?_
    simp only
    split <;> simp
  have hcol : ∀ i, gram (ringObs dd img q white) i 3 =
      ![1 / 2 * W, 1 / 2 * W, 1 / 4 * W, W] i := by
    intro i
    have : gram (ringObs dd img q white) i 3 =
        ((ringObs dd img q white).map fun o => (fun p : ℝ × ℝ => basis p.1 p.2 i) (o.1, o.2.1)).sum := by
      simp [gram, basis]
    rw [this, toI fun p : ℝ × ℝ => basis p.1 p.2 i]
    fin_cases i
    · simpa [basis] using i1
    · simpa [basis] using i2
    · simpa [basis] using i3
    · simpa [basis] using hW.symm
  have hrow : ∀ i, rhs (ringObs dd img q white) i = ![1 / 2 * S, 1 / 2 * S, 1 / 4 * S, S] i := by
    intro i
    have : rhs (ringObs dd img q white) i =
        ((ringObs dd img q white).map fun o => (fun p : ℝ × ℝ => basis p.1 p.2 i) (o.1, o.2.1) * o.2.2).sum := by
      simp [rhs]
    rw [this, toG fun p : ℝ × ℝ => basis p.1 p.2 i]
    fin_cases i
    · simpa [basis] using g1
    · simpa [basis] using g2
    · simpa [basis] using g3
    · simpa [basis] using hS.symm
  refine ⟨W, S, hWpos, ?_, by rw [hW, hI], by rw [hS, hG]⟩
  refine gray_const ?_ ?_ x y
  · intro he
    have := hcol 3
    rw [he] at this
    simp [gram] at this
    linarith
  · intro i
    rw [hrow, hcol]
    have hW0 : W ≠ 0 := ne_of_gt hWpos
    fin_cases i <;> simp <;> field_simp

/-- The threshold: the black model is the black level, the white model is above the black level and at
most the white level, although the four outer corner cells are black. -/
theorem threshold {dd : ℕ} (hdd : 2 ≤ dd) {img : Image} {q : Fin 4 → P2} {val : ℤ → ℤ → ℝ} {b w : ℝ}
    (hbw : b < w)
    (hval : ∀ ix iy : ℤ, -1 ≤ ix → ix ≤ dd → -1 ≤ iy → iy ≤ dd →
      sample img q (((ix : ℝ) + 1 / 2) / dd) (((iy : ℝ) + 1 / 2) / dd) = some (val ix iy))
    (hwhite : ∀ ix iy : ℤ, ring dd ix iy = some true → val ix iy =
      if (ix = -1 ∨ ix = dd) ∧ (iy = -1 ∨ iy = dd) then b else w)
    (hblack : ∀ ix iy : ℤ, -1 ≤ ix → ix ≤ dd → -1 ≤ iy → iy ≤ dd → ring dd ix iy = some false →
      val ix iy = b)
    (x y : ℝ) :
    b < (gray (ringObs dd img q false) x y + gray (ringObs dd img q true) x y) * (1 / 2) ∧
    (gray (ringObs dd img q false) x y + gray (ringObs dd img q true) x y) * (1 / 2) < w := by
  obtain ⟨val', hval'⟩ : ∃ val' : ℤ → ℤ → ℝ, val' = fun ix iy =>
      if ring dd ix iy = some false then b else val ix iy := ⟨_, rfl⟩
  have hv' : ∀ ix iy : ℤ, -1 ≤ ix → ix ≤ dd → -1 ≤ iy → iy ≤ dd → val' ix iy = val ix iy := by
    intro ix iy h1 h2 h3 h4
    rw [hval']
    simp only
    split
    · rename_i h; exact (hblack ix iy h1 h2 h3 h4 h).symm
    · rfl
  have hvs : ∀ ix iy : ℤ, -1 ≤ ix → ix ≤ dd → -1 ≤ iy → iy ≤ dd →
      sample img q (((ix : ℝ) + 1 / 2) / dd) (((iy : ℝ) + 1 / 2) / dd) = some (val' ix iy) := by
    intro ix iy h1 h2 h3 h4
    rw [hv' ix iy h1 h2 h3 h4]; exact hval ix iy h1 h2 h3 h4
  have ringx : ∀ ix iy : ℤ, ring dd (dd - 1 - ix) iy = ring dd ix iy := by
    intro ix iy
    unfold ring
    have e1 : (iy = -1 ∨ iy = (dd : ℤ) ∨ (dd : ℤ) - 1 - ix = -1 ∨ (dd : ℤ) - 1 - ix = dd) ↔
        (iy = -1 ∨ iy = (dd : ℤ) ∨ ix = -1 ∨ ix = dd) := by omega
    have e2 : (iy = 0 ∨ iy = (dd : ℤ) - 1 ∨ (dd : ℤ) - 1 - ix = 0 ∨ (dd : ℤ) - 1 - ix = dd - 1) ↔
        (iy = 0 ∨ iy = (dd : ℤ) - 1 ∨ ix = 0 ∨ ix = dd - 1) := by omega
    simp only [e1, e2]
  have ringy : ∀ ix iy : ℤ, ring dd ix (dd - 1 - iy) = ring dd ix iy := by
    intro ix iy
    unfold ring
    have e1 : ((dd : ℤ) - 1 - iy = -1 ∨ (dd : ℤ) - 1 - iy = (dd : ℤ) ∨ ix = -1 ∨ ix = dd) ↔
        (iy = -1 ∨ iy = (dd : ℤ) ∨ ix = -1 ∨ ix = dd) := by omega
    have e2 : ((dd : ℤ) - 1 - iy = 0 ∨ (dd : ℤ) - 1 - iy = (dd : ℤ) - 1 ∨ ix = 0 ∨ ix = dd - 1) ↔
        (iy = 0 ∨ iy = (dd : ℤ) - 1 ∨ ix = 0 ∨ ix = dd - 1) := by omega
    simp only [e1, e2]
  have vw : ∀ ix iy : ℤ, ring dd ix iy = some true → val' ix iy =
      if (ix = -1 ∨ ix = dd) ∧ (iy = -1 ∨ iy = dd) then b else w := by
    intro ix iy h
    rw [hval']; simp only; rw [if_neg (by rw [h]; decide), hwhite ix iy h]
  have vb : ∀ ix iy : ℤ, ring dd ix iy = some false → val' ix iy = b := by
    intro ix iy h
    rw [hval']; simp only; rw [if_pos h]
  have hB : gray (ringObs dd img q false) x y = b := by
    obtain ⟨W, S, hW, hg, eW, eS⟩ := gray_ring hdd hvs false
      (fun ix iy h => by rw [vb _ _ h, vb _ _ (by rw [ringx]; exact h)])
      (fun ix iy h => by rw [vb _ _ h, vb _ _ (by rw [ringy]; exact h)]) x y
    have : S = b * W := by
      rw [eS, eW, Finset.mul_sum]
      refine Finset.sum_congr rfl fun m _ => ?_
      rw [Finset.mul_sum]
      refine Finset.sum_congr rfl fun n _ => ?_
      by_cases h : ring dd ((n : ℤ) - 1) ((m : ℤ) - 1) = some false
      · rw [if_pos h, if_pos h, vb _ _ h, mul_one]
      · rw [if_neg h, if_neg h, mul_zero]
    rw [hg, this, mul_div_assoc, div_self (ne_of_gt hW), mul_one]
  have cx : ∀ ix : ℤ, ((dd : ℤ) - 1 - ix = -1 ∨ (dd : ℤ) - 1 - ix = dd) ↔ (ix = -1 ∨ ix = dd) := by
    intro ix; omega
  obtain ⟨W, S, hW, hg, eW, eS⟩ := gray_ring hdd hvs true
    (fun ix iy h => by
      rw [vw _ _ h, vw _ _ (by rw [ringx]; exact h)]; simp only [cx])
    (fun ix iy h => by
      rw [vw _ _ h, vw _ _ (by rw [ringy]; exact h)]; simp only [cx]) x y
  have hle : S ≤ w * W := by
    rw [eS, eW, Finset.mul_sum]
    refine Finset.sum_le_sum fun m _ => ?_
    rw [Finset.mul_sum]
    refine Finset.sum_le_sum fun n _ => ?_
    by_cases h : ring dd ((n : ℤ) - 1) ((m : ℤ) - 1) = some true
    · rw [if_pos h, if_pos h, vw _ _ h, mul_one]
      split
      · exact hbw.le
      · exact le_refl _
    · rw [if_neg h, if_neg h, mul_zero]
  have hlt : b * W < S := by
    rw [eS, eW, Finset.mul_sum]
    have cell : ∀ n m : ℕ, b * (if ring dd ((n : ℤ) - 1) ((m : ℤ) - 1) = some true then 1 else 0) ≤
        if ring dd ((n : ℤ) - 1) ((m : ℤ) - 1) = some true then val' ((n : ℤ) - 1) ((m : ℤ) - 1) else 0 := by
      intro n m
      by_cases h : ring dd ((n : ℤ) - 1) ((m : ℤ) - 1) = some true
      · rw [if_pos h, if_pos h, vw _ _ h, mul_one]
        split
        · exact le_refl _
        · exact hbw.le
      · rw [if_neg h, if_neg h, mul_zero]
    refine Finset.sum_lt_sum (fun m _ => ?_) ⟨0, by simp, ?_⟩
    · rw [Finset.mul_sum]
      exact Finset.sum_le_sum fun n _ => cell n m
    · rw [Finset.mul_sum]
      refine Finset.sum_lt_sum (fun n _ => cell n 0) ⟨1, by simp, ?_⟩
      have h : ring dd (((1 : ℕ) : ℤ) - 1) (((0 : ℕ) : ℤ) - 1) = some true := by
        unfold ring; rw [if_pos (by omega)]
      rw [if_pos h, if_pos h, vw _ _ h, if_neg (by omega), mul_one]
      exact hbw
  have h1 : S / W ≤ w := by rw [div_le_iff₀ hW]; exact hle
  have h2 : b < S / W := by rw [lt_div_iff₀ hW]; exact hlt
  rw [hB, hg]
  constructor <;> linarith

end Kalibr.Print
