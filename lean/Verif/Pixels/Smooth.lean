import Mathlib.Algebra.Order.BigOperators.Group.List
import Verif.Pixels.Model

/-!
# C140: smoothing
-/

namespace Kalibr.Pixels

/-! ## Specification -/

/-- The nearest valid index of a line of `n` pixels. -/
def clampIndex (n : ℕ) (k : ℤ) : ℕ := (max 0 (min ((n : ℤ) - 1) k)).toNat

/-- The smoothed value at place `x` of a line of `n` pixels, whose first and last pixels are repeated
outward. -/
def blurAt (n : ℕ) (a : ℕ → ℝ) (f : List ℝ) (x : ℕ) : ℝ :=
  ((List.range f.length).map fun j : ℕ => a (clampIndex n ((x : ℤ) + (f.length / 2 : ℕ) - j)) * f.getD j 0).sum

/-- The smoothed image: along the rows, then along the columns. -/
def Blurred (width height : ℕ) (p : ℕ → ℝ) (fh fv : List ℝ) (x y : ℕ) : ℝ :=
  blurAt height (fun y' => blurAt width (fun x' => p (y' * width + x')) fh x) fv y

/-! ## One line -/

theorem foldl_update (v : ℕ → ℝ) (roff h s : ℕ) (hs : h ≤ s) (n : ℕ) (r : ℕ → ℝ) (k : ℕ) :
    ((List.range' s n).foldl (fun r i => Function.update r (roff + i - h) (v i)) r) k
      = if roff + s ≤ k + h ∧ k + h < roff + s + n then v (k + h - roff) else r k := by
  induction n with
  | zero => simp only [List.range'_zero, List.foldl_nil]; rw [if_neg (by omega)]
  | succ n ih =>
    rw [List.range'_1_concat, List.foldl_append, List.foldl_cons, List.foldl_nil]
    by_cases hk : k = roff + (s + n) - h
    · subst hk
      rw [Function.update_self, if_pos (by omega)]
      congr 1; omega
    · rw [Function.update_of_ne hk, ih]
      by_cases hc : roff + s ≤ k + h ∧ k + h < roff + s + n
      · rw [if_pos hc, if_pos (by omega)]
      · rw [if_neg hc, if_neg (by omega)]

/-- The value that the call writes at place `x` of the line. -/
def lineValue (a : ℕ → ℝ) (aoff alen : ℕ) (f : List ℝ) (x : ℕ) : ℝ :=
  let h := f.length / 2
  if x + h < f.length then head a aoff alen f (x + h)
  else if x + h < alen then middle a aoff f (x + h) else last a aoff alen f (x + h)

theorem convolve_spec (a : ℕ → ℝ) (aoff alen : ℕ) (f : List ℝ) (hl : f.length ≤ alen) (r : ℕ → ℝ) (roff k : ℕ) :
    convolve a aoff alen f r roff k
      = if roff ≤ k ∧ k < roff + alen then lineValue a aoff alen f (k - roff) else r k := by
  unfold convolve
  have hh : f.length / 2 ≤ f.length := Nat.div_le_self _ _
  generalize hd : f.length / 2 = h at *
  rw [foldl_update (last a aoff alen f) roff h alen (by omega), foldl_update _ roff h f.length (by omega),
    foldl_update _ roff h h le_rfl]
  unfold lineValue
  simp only [hd]
  by_cases hk : roff ≤ k ∧ k < roff + alen
  · rw [if_pos hk]
    have e : k + h - roff = k - roff + h := by omega
    rw [e]
    by_cases h1 : k - roff + h < f.length
    · rw [if_pos h1, if_neg (by omega), if_neg (by omega), if_pos (by omega)]
    · rw [if_neg h1]
      by_cases h2 : k - roff + h < alen
      · rw [if_pos h2, if_neg (by omega), if_pos (by omega)]
      · rw [if_neg h2, if_pos (by omega)]
  · rw [if_neg hk, if_neg (by omega), if_neg (by omega), if_neg (by omega)]

theorem clamp_inside {n : ℕ} {k : ℤ} {m : ℕ} (h : k = m) (hm : m < n) : clampIndex n k = m := by
  unfold clampIndex; omega

theorem clamp_low {n : ℕ} (hn : 0 < n) {k : ℤ} (h : k ≤ 0) : clampIndex n k = 0 := by
  unfold clampIndex; omega

theorem clamp_high {n : ℕ} {k : ℤ} (hn : 0 < n) (h : (n : ℤ) - 1 ≤ k) : clampIndex n k = n - 1 := by
  unfold clampIndex; omega

/-- Inside, the value is the smoothed one. -/
theorem line_middle (a : ℕ → ℝ) (aoff alen : ℕ) (f : List ℝ) (x : ℕ) (h1 : f.length ≤ x + f.length / 2)
    (h2 : x + f.length / 2 < alen) :
    lineValue a aoff alen f x = blurAt alen (fun i => a (aoff + i)) f x := by
  unfold lineValue
  simp only
  rw [if_neg (by omega), if_pos h2]
  unfold middle blurAt
  congr 1
  apply List.map_congr_left
  intro j hj
  have hj' := List.mem_range.1 hj
  rw [clamp_inside (m := x + f.length / 2 - j) (by omega) (by omega)]
  congr 2; omega

/-- A line that starts at index zero is smoothed correctly to its ends. -/
theorem line_zero (a : ℕ → ℝ) (alen : ℕ) (f : List ℝ) (hl : f.length ≤ alen) (h0 : 0 < f.length) (x : ℕ) (hx : x < alen) :
    lineValue a 0 alen f x = blurAt alen a f x := by
  by_cases h1 : x + f.length / 2 < f.length
  · unfold lineValue
    simp only
    rw [if_pos h1]
    unfold head blurAt
    congr 1
    apply List.map_congr_left
    intro j hj
    have hj' := List.mem_range.1 hj
    simp only [Nat.zero_add]
    by_cases hc : x + f.length / 2 < j ∨ x + f.length / 2 ≥ alen + j
    · rw [if_pos hc, clamp_low (by omega) (by omega)]
    · rw [if_neg hc, clamp_inside (m := x + f.length / 2 - j) (by omega) (by omega)]
  · by_cases h2 : x + f.length / 2 < alen
    · rw [line_middle a 0 alen f x (by omega) h2]
      simp only [Nat.zero_add]
    · unfold lineValue
      simp only
      rw [if_neg h1, if_neg h2]
      unfold last blurAt
      congr 1
      apply List.map_congr_left
      intro j hj
      have hj' := List.mem_range.1 hj
      simp only [Nat.zero_add]
      by_cases hc : x + f.length / 2 ≥ alen + j ∨ x + f.length / 2 < j
      · rw [if_pos hc, clamp_high (by omega) (by omega)]
      · rw [if_neg hc, clamp_inside (m := x + f.length / 2 - j) (by omega) (by omega)]

theorem sum_const (c : ℝ) (f : List ℝ) : ((List.range f.length).map fun j => c * f.getD j 0).sum = c * f.sum := by
  have : (List.range f.length).map (fun j => c * f.getD j 0) = f.map (c * ·) := by
    apply List.ext_getElem
    · simp
    · intro i h1 h2
      simp only [List.getElem_map, List.getElem_range]
      rw [List.getD_eq_getElem f 0 (by simpa using h2)]
  rw [this, List.sum_map_mul_left]; simp

/-- In the third row and below, the first places get the first pixel of the line. -/
theorem line_head_wrong (a : ℕ → ℝ) (y alen : ℕ) (f : List ℝ) (hl : f.length ≤ alen) (hy : 2 ≤ y) (x : ℕ)
    (hx : x + f.length / 2 < f.length) :
    lineValue a (y * alen) alen f x = a (y * alen) * f.sum := by
  unfold lineValue
  simp only
  rw [if_pos hx]
  unfold head
  rw [← sum_const]
  congr 1
  apply List.map_congr_left
  intro j hj
  have hj' := List.mem_range.1 hj
  have : 2 * alen ≤ y * alen := Nat.mul_le_mul_right _ hy
  rw [if_pos (Or.inr (by omega))]

/-- In the second row and below, the last places get the last pixel of the line. -/
theorem line_last_wrong (a : ℕ → ℝ) (y alen : ℕ) (f : List ℝ) (hl : f.length ≤ alen) (hy : 1 ≤ y) (x : ℕ)
    (hx : alen ≤ x + f.length / 2) :
    lineValue a (y * alen) alen f x = a (y * alen + alen - 1) * f.sum := by
  unfold lineValue
  simp only
  rw [if_neg (by omega), if_neg (by omega)]
  unfold last
  rw [← sum_const]
  congr 1
  apply List.map_congr_left
  intro j hj
  have hj' := List.mem_range.1 hj
  have : 1 * alen ≤ y * alen := Nat.mul_le_mul_right _ hy
  rw [if_pos (Or.inl (by omega))]

/-! ## The image -/

theorem index_inj {w x x' y y' : ℕ} (hx : x < w) (hx' : x' < w) (h : y * w + x = y' * w + x') : y = y' ∧ x = x' := by
  have e1 : (y * w + x) / w = y := by rw [Nat.mul_comm, Nat.mul_add_div (by omega), Nat.div_eq_of_lt hx]; omega
  have e2 : (y' * w + x') / w = y' := by rw [Nat.mul_comm, Nat.mul_add_div (by omega), Nat.div_eq_of_lt hx']; omega
  have : y = y' := by rw [← e1, ← e2, h]
  subst this
  exact ⟨rfl, by omega⟩

theorem in_row {w x y m : ℕ} (hx : x < w) : (m * w ≤ y * w + x ∧ y * w + x < m * w + w) ↔ y = m := by
  constructor
  · rintro ⟨h1, h2⟩
    have := index_inj (w := w) (x := x) (x' := y * w + x - m * w) (y := y) (y' := m) hx (by omega) (by omega)
    exact this.1
  · rintro rfl
    omega

theorem horizontal_spec (w h : ℕ) (p : ℕ → ℝ) (f : List ℝ) (hl : f.length ≤ w) (x y : ℕ) (hx : x < w) (hy : y < h) :
    horizontal w h p f (y * w + x) = lineValue p (y * w) w f x := by
  unfold horizontal
  have key : ∀ m, ((List.range m).foldl (fun r y => convolve p (y * w) w f r (y * w)) p) (y * w + x)
      = if y < m then lineValue p (y * w) w f x else p (y * w + x) := by
    intro m
    induction m with
    | zero => simp
    | succ m ih =>
      rw [List.range_succ, List.foldl_append, List.foldl_cons, List.foldl_nil, convolve_spec p _ w f hl]
      by_cases hc : y = m
      · subst hc
        rw [if_pos ((in_row hx).2 rfl), if_pos (by omega)]
        congr 1; omega
      · rw [if_neg (fun h => hc ((in_row hx).1 h)), ih]
        by_cases hm : y < m
        · rw [if_pos hm, if_pos (by omega)]
        · rw [if_neg hm, if_neg (by omega)]
  rw [key h, if_pos hy]

theorem column_update (w x' : ℕ) (hx' : x' < w) (v : ℕ → ℝ) (h : ℕ) (p : ℕ → ℝ) (x y : ℕ) (hx : x < w) :
    ((List.range h).foldl (fun p y => Function.update p (y * w + x') (v y)) p) (y * w + x)
      = if x = x' ∧ y < h then v y else p (y * w + x) := by
  induction h with
  | zero => simp
  | succ h ih =>
    rw [List.range_succ, List.foldl_append, List.foldl_cons, List.foldl_nil]
    by_cases hc : y * w + x = h * w + x'
    · obtain ⟨rfl, rfl⟩ := index_inj hx hx' hc
      rw [Function.update_self, if_pos ⟨rfl, by omega⟩]
    · rw [Function.update_of_ne hc, ih]
      by_cases hm : x = x' ∧ y < h
      · rw [if_pos hm, if_pos ⟨hm.1, by omega⟩]
      · rw [if_neg hm, if_neg]
        rintro ⟨rfl, hy⟩
        rcases Nat.lt_succ_iff_lt_or_eq.1 hy with h' | h'
        · exact hm ⟨rfl, h'⟩
        · exact hc (by rw [h'])

theorem vertical_spec (w h : ℕ) (r p : ℕ → ℝ) (f : List ℝ) (hl : f.length ≤ h) (x y : ℕ) (hx : x < w) (hy : y < h) :
    vertical w h r p f (y * w + x) = lineValue (fun y' => r (y' * w + x)) 0 h f y := by
  unfold vertical
  have key : ∀ m, m ≤ w → ((List.range m).foldl (fun (st : (ℕ → ℝ) × (ℕ → ℝ)) x =>
      let tmp := fun y => r (y * w + x)
      let tmp2 := convolve tmp 0 h f st.2 0
      ((List.range h).foldl (fun p y => Function.update p (y * w + x) (tmp2 y)) st.1, tmp2)) (p, fun _ => 0)).1 (y * w + x)
      = if x < m then lineValue (fun y' => r (y' * w + x)) 0 h f y else p (y * w + x) := by
    intro m hm
    induction m with
    | zero => simp
    | succ m ih =>
      rw [List.range_succ, List.foldl_append, List.foldl_cons, List.foldl_nil]
      simp only
      rw [column_update w m (by omega) _ h _ x y hx]
      by_cases hc : x = m
      · subst hc
        rw [if_pos ⟨rfl, hy⟩, if_pos (by omega), convolve_spec _ 0 h f hl, if_pos (by omega)]
        rfl
      · rw [if_neg (fun h => hc h.1), ih (by omega)]
        by_cases hm' : x < m
        · rw [if_pos hm', if_pos (by omega)]
        · rw [if_neg hm', if_neg (by omega)]
  rw [key w le_rfl, if_pos hx]

theorem filter_spec (w h : ℕ) (p : ℕ → ℝ) (fh fv : List ℝ) (hw : fh.length ≤ w) (hh : fv.length ≤ h)
    (h0 : 0 < fv.length) (x y : ℕ) (hx : x < w) (hy : y < h) :
    filterFactored w h p fh fv (y * w + x) = blurAt h (fun y' => lineValue p (y' * w) w fh x) fv y := by
  unfold filterFactored
  rw [vertical_spec w h _ p fv hh x y hx hy, line_zero _ h fv hh h0 y hy]
  unfold blurAt
  congr 1
  apply List.map_congr_left
  intro j _
  have : clampIndex h ((y : ℤ) + (fv.length / 2 : ℕ) - j) < h := by unfold clampIndex; omega
  simp only
  rw [horizontal_spec w h p fh hw x _ hx this]

/-- **C140 (partial).** Every column that is not one of the first or the last few (two and one for the kernel
of three numbers that the detector uses) is smoothed as it should be, in all rows.  Missing: the
first and last columns, see the counterexample. -/
theorem C140_smooth_partial (w h : ℕ) (p : ℕ → ℝ) (fh fv : List ℝ) (hw : fh.length ≤ w) (hh : fv.length ≤ h)
    (h0 : 0 < fv.length) (x y : ℕ) (hx1 : fh.length ≤ x + fh.length / 2) (hx2 : x + fh.length / 2 < w) (hy : y < h) :
    filterFactored w h p fh fv (y * w + x) = Blurred w h p fh fv x y := by
  rw [filter_spec w h p fh fv hw hh h0 x y (by omega) hy]
  unfold Blurred
  congr 1
  funext y'
  exact line_middle p (y' * w) w fh x hx1 hx2

/-- **C140, the first columns.** In the rows from the third on, up to the reach of the vertical kernel, the
first columns are copies of the very first one: what is in the other columns has no influence. -/
theorem C140_first_columns (w h : ℕ) (p : ℕ → ℝ) (fh fv : List ℝ) (hw : fh.length ≤ w) (hh : fv.length ≤ h)
    (h0 : 0 < fv.length) (x y : ℕ) (hx : x + fh.length / 2 < fh.length) (hy : fv.length + 1 ≤ y + fv.length / 2) (hyh : y < h) :
    filterFactored w h p fh fv (y * w + x) = blurAt h (fun y' => p (y' * w) * fh.sum) fv y := by
  rw [filter_spec w h p fh fv hw hh h0 x y (by omega) hyh]
  unfold blurAt
  congr 1
  apply List.map_congr_left
  intro j hj
  have hj' := List.mem_range.1 hj
  simp only
  have hc : 2 ≤ clampIndex h ((y : ℤ) + (fv.length / 2 : ℕ) - j) := by unfold clampIndex; omega
  rw [line_head_wrong p _ w fh hw hc x hx]

/-- A white column in a black image, five by five. -/
def stripe : ℕ → ℝ := fun i => if i % 5 = 1 then 1 else 0

/-- **C140 is false.**  A line one pixel wide in the second column: the smoothed image should be half as
bright there, and it is black in the column of the line. -/
theorem C140_counterexample :
    Blurred 5 5 stripe [1 / 4, 1 / 2, 1 / 4] [1 / 4, 1 / 2, 1 / 4] 1 3 = 1 / 2 ∧
    filterFactored 5 5 stripe [1 / 4, 1 / 2, 1 / 4] [1 / 4, 1 / 2, 1 / 4] (3 * 5 + 1) = 0 := by
  constructor
  · have : Int.toNat 2 = 2 := rfl
    norm_num [Blurred, blurAt, stripe, clampIndex, List.range_succ, this]
  · rw [C140_first_columns 5 5 stripe _ _ (by simp) (by simp) (by simp) 1 3 (by simp) (by simp) (by norm_num)]
    norm_num [blurAt, stripe, clampIndex, List.range_succ]

/-! ## Range -/

theorem mean_range {f : List ℝ} (hf : ∀ v ∈ f, 0 ≤ v) (hs : f.sum = 1) {c : ℕ → ℝ} {m M : ℝ}
    (hc : ∀ j < f.length, m ≤ c j ∧ c j ≤ M) :
    m ≤ ((List.range f.length).map fun j => c j * f.getD j 0).sum ∧
    ((List.range f.length).map fun j => c j * f.getD j 0).sum ≤ M := by
  have pos : ∀ j, 0 ≤ f.getD j 0 := by
    intro j
    by_cases h : j < f.length
    · rw [List.getD_eq_getElem f 0 h]; exact hf _ (List.getElem_mem h)
    · rw [List.getD_eq_default f 0 (by omega)]
  constructor
  · calc m = m * f.sum := by rw [hs, mul_one]
      _ = ((List.range f.length).map fun j => m * f.getD j 0).sum := (sum_const m f).symm
      _ ≤ _ := by
        apply List.sum_le_sum
        intro j hj
        exact mul_le_mul_of_nonneg_right (hc j (List.mem_range.1 hj)).1 (pos j)
  · calc _ ≤ ((List.range f.length).map fun j => M * f.getD j 0).sum := by
          apply List.sum_le_sum
          intro j hj
          exact mul_le_mul_of_nonneg_right (hc j (List.mem_range.1 hj)).2 (pos j)
      _ = M * f.sum := sum_const M f
      _ = M := by rw [hs, mul_one]

/-- **C140, the range.** With a kernel of non-negative numbers of sum one the smoothed image stays between
the smallest and the greatest value of the image, at every pixel; a constant image is unchanged. -/
theorem C140_range (w h : ℕ) (p : ℕ → ℝ) (fh fv : List ℝ) (hw : fh.length ≤ w) (hh : fv.length ≤ h)
    (ph : ∀ v ∈ fh, 0 ≤ v) (sh : fh.sum = 1) (pv : ∀ v ∈ fv, 0 ≤ v) (sv : fv.sum = 1) (m M : ℝ)
    (hp : ∀ i < w * h, m ≤ p i ∧ p i ≤ M) (x y : ℕ) (hx : x < w) (hy : y < h) :
    m ≤ filterFactored w h p fh fv (y * w + x) ∧ filterFactored w h p fh fv (y * w + x) ≤ M := by
  have h0 : 0 < fv.length := by
    rcases fv with _ | ⟨a, l⟩
    · simp at sv
    · simp
  rw [filter_spec w h p fh fv hw hh h0 x y hx hy]
  unfold blurAt
  apply mean_range pv sv
  intro k _
  have hy' : clampIndex h ((y : ℤ) + (fv.length / 2 : ℕ) - k) < h := by unfold clampIndex; omega
  generalize clampIndex h ((y : ℤ) + (fv.length / 2 : ℕ) - k) = y' at *
  have inb : y' * w + w ≤ w * h := by
    calc y' * w + w = w * (y' + 1) := by ring
      _ ≤ w * h := Nat.mul_le_mul_left _ hy'
  have hhalf : fh.length / 2 ≤ fh.length := Nat.div_le_self _ _
  unfold lineValue
  simp only
  by_cases h1 : x + fh.length / 2 < fh.length
  · rw [if_pos h1]
    apply mean_range ph sh
    intro j hj
    by_cases hc : y' * w + (x + fh.length / 2) < j ∨ y' * w + (x + fh.length / 2) ≥ w + j
    · rw [if_pos hc]; exact hp _ (by omega)
    · rw [if_neg hc]; exact hp _ (by omega)
  · rw [if_neg h1]
    by_cases h2 : x + fh.length / 2 < w
    · rw [if_pos h2]
      apply mean_range ph sh
      intro j hj
      exact hp _ (by omega)
    · rw [if_neg h2]
      apply mean_range ph sh
      intro j hj
      by_cases hc : y' * w + (x + fh.length / 2) ≥ w + j ∨ y' * w + (x + fh.length / 2) < j
      · rw [if_pos hc]; exact hp _ (by omega)
      · rw [if_neg hc]; exact hp _ (by omega)

/-- **C140, the kernel.** The kernel has the wanted number of entries, none is negative, they add up to one,
and with an odd number of entries it is symmetric. -/
theorem C140_kernel (sigma : ℝ) (n : ℕ) (hn : 0 < n) :
    (makeGaussianFilter sigma n).length = n ∧ (∀ v ∈ makeGaussianFilter sigma n, 0 ≤ v) ∧
    (makeGaussianFilter sigma n).sum = 1 ∧
    (n % 2 = 1 → ∀ i < n, (makeGaussianFilter sigma n).getD i 0 = (makeGaussianFilter sigma n).getD (n - 1 - i) 0) := by
  unfold makeGaussianFilter
  by_cases hs : sigma = 0
  · rw [if_pos hs]
    have hlt : n / 2 < n := Nat.div_lt_self hn (by norm_num)
    refine ⟨by simp, ?_, ?_, ?_⟩
    · intro v hv
      rcases List.mem_or_eq_of_mem_set hv with h | h
      · rw [(List.mem_replicate.1 h).2]
      · rw [h]; norm_num
    · rw [List.set_eq_take_cons_drop _ (by simpa using hlt)]
      simp
    · intro ho i hi
      have e : ∀ k, k < n → ((List.replicate n (0 : ℝ)).set (n / 2) 1).getD k 0 = if k = n / 2 then 1 else 0 := by
        intro k hk
        rw [List.getD_eq_getElem _ _ (by simpa using hk), List.getElem_set]
        by_cases h : n / 2 = k
        · rw [if_pos h, if_pos h.symm]
        · rw [if_neg h, if_neg (fun h' => h h'.symm), List.getElem_replicate]
      rw [e i hi, e (n - 1 - i) (by omega)]
      by_cases h : i = n / 2
      · rw [if_pos h, if_pos (by omega)]
      · rw [if_neg h, if_neg (by omega)]
  · rw [if_neg hs]
    simp only
    obtain ⟨raw, hr⟩ : ∃ raw, raw = (List.range n).map fun i : ℕ =>
      Real.exp (-((i : ℝ) - (n / 2 : ℕ)) * ((i : ℝ) - (n / 2 : ℕ)) * (1 / (2 * sigma * sigma))) := ⟨_, rfl⟩
    rw [← hr]
    have hlen : raw.length = n := by rw [hr]; simp
    have hpos : ∀ v ∈ raw, 0 < v := by
      intro v hv
      rw [hr] at hv
      obtain ⟨i, _, rfl⟩ := List.mem_map.1 hv
      exact Real.exp_pos _
    have hsum : 0 < raw.sum := List.sum_pos raw hpos (by intro h; rw [h] at hlen; simp at hlen; omega)
    refine ⟨by simp [hlen], ?_, ?_, ?_⟩
    · intro v hv
      obtain ⟨u, hu, rfl⟩ := List.mem_map.1 hv
      exact div_nonneg (hpos u hu).le hsum.le
    · have : raw.map (fun v => v / raw.sum) = raw.map (fun v => v * raw.sum⁻¹) := by
        apply List.map_congr_left; intro v _; exact div_eq_mul_inv _ _
      rw [this, List.sum_map_mul_right]
      simp [hsum.ne']
    · intro ho i hi
      have e : ∀ k, k < n → (raw.map fun v => v / raw.sum).getD k 0
          = Real.exp (-((k : ℝ) - (n / 2 : ℕ)) * ((k : ℝ) - (n / 2 : ℕ)) * (1 / (2 * sigma * sigma))) / raw.sum := by
        intro k hk
        rw [List.getD_eq_getElem _ _ (by simpa [hlen] using hk), List.getElem_map]
        congr 1
        simp only [hr, List.getElem_map, List.getElem_range]
      rw [e i hi, e (n - 1 - i) (by omega)]
      congr 2
      have e1 : ((n - 1 - i : ℕ) : ℝ) = 2 * ((n / 2 : ℕ) : ℝ) - i := by
        have : n - 1 - i + i = 2 * (n / 2) := by omega
        have h2 : ((n - 1 - i : ℕ) : ℝ) + i = 2 * ((n / 2 : ℕ) : ℝ) := by exact_mod_cast this
        linarith
      rw [e1]
      ring

/-- The kernel of the detector has three entries; the hypotheses of the theorems are met by an image of
640 by 480 pixels. -/
example : (makeGaussianFilter (8 / 10) 3).length ≤ 640 ∧ (makeGaussianFilter (8 / 10) 3).sum = 1 ∧
    (makeGaussianFilter (8 / 10) 3).length ≤ 2 + (makeGaussianFilter (8 / 10) 3).length / 2 := by
  obtain ⟨h1, _, h3, _⟩ := C140_kernel (8 / 10) 3 (by norm_num)
  rw [h1]
  exact ⟨by norm_num, h3, by norm_num⟩

end Kalibr.Pixels
