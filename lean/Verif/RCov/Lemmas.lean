import Verif.RCov.Model
import Verif.Tactics

/-!
# The loops of the covariance
-/

namespace Kalibr.RCov

/-- What the loops compute: a symmetric matrix `S` with `R S` lower triangular and the reciprocal diagonal of `R`. -/
structure Solves (R S : Mat) (b n : ℕ) : Prop where
  diag : ∀ i, b ≤ i → i < n → R i i ≠ 0
  sym : ∀ i j, b ≤ i → i < n → b ≤ j → j < n → S i j = S j i
  eq : ∀ i l, b ≤ i → i < l → l < n → ∑ j ∈ Finset.Ico i n, R i j * S j l = 0
  eqd : ∀ l, b ≤ l → l < n → ∑ j ∈ Finset.Ico l n, R l j * S j l = 1 / R l l

/-- The part of the matrix that is done in column `l` after `k` rows. -/
def Done (S cov : Mat) (b n l k : ℕ) : Prop :=
  ∀ x y, b ≤ x → x < n → b ≤ y → y < n →
    (l < x ∨ l < y ∨ (x = l ∧ l ≤ y + k) ∨ (y = l ∧ l ≤ x + k)) → cov x y = S x y

theorem row_done {R S : Mat} {b n : ℕ} (h : Solves R S b n) {l k : ℕ} (hl : l < n) (hk : b + k + 1 ≤ l) {cov : Mat}
    (hd : Done S cov b n l k) : Done S (row R n l (l - 1 - k) cov) b n l (k + 1) := by
  set i := l - 1 - k with hi
  have hil : i < l := by omega
  have hbi : b ≤ i := by omega
  have h1 : ∑ j ∈ Finset.Ico (i + 1) (l + 1), R i j * cov j l = ∑ j ∈ Finset.Ico (i + 1) (l + 1), R i j * S j l := by
    refine Finset.sum_congr rfl fun j hj => ?_
    rw [Finset.mem_Ico] at hj
    rw [hd j l (by omega) (by omega) (by omega) hl (by omega)]
  have h2 : ∑ j ∈ Finset.Ico (l + 1) n, R i j * cov l j = ∑ j ∈ Finset.Ico (l + 1) n, R i j * S j l := by
    refine Finset.sum_congr rfl fun j hj => ?_
    rw [Finset.mem_Ico] at hj
    rw [hd l j (by omega) hl (by omega) (by omega) (by omega), h.sym l j (by omega) hl (by omega) (by omega)]
  have hs := h.eq i l hbi hil hl
  rw [Finset.sum_eq_sum_Ico_succ_bot (by omega), ← Finset.sum_Ico_consecutive _ (show i + 1 ≤ l + 1 by omega) (by omega)] at hs
  have hv : 1 / R i i * (-(∑ j ∈ Finset.Ico (i + 1) (l + 1), R i j * cov j l) -
      ∑ j ∈ Finset.Ico (l + 1) n, R i j * cov l j) = S i l := by
    rw [h1, h2]
    have := h.diag i hbi (by omega)
    field_simp
    linarith
  intro x y hx hxn hy hyn hc
  simp only [row, set, hv]
  by_cases hA : x = l ∧ y = i
  · rw [if_pos hA, hA.1, hA.2]
    simp only [and_self, if_true]
    exact h.sym i l hbi (by omega) (by omega) hl
  · rw [if_neg hA]
    by_cases hB : x = i ∧ y = l
    · rw [if_pos hB, hB.1, hB.2]
    · rw [if_neg hB]
      exact hd x y hx hxn hy hyn (by omega)

theorem rows_done {R S : Mat} {b n : ℕ} (h : Solves R S b n) {l : ℕ} (hl : l < n) {cov : Mat} (hd : Done S cov b n l 0)
    (k : ℕ) (hk : b + k ≤ l) : Done S (rows R n l cov k) b n l k := by
  induction k with
  | zero => exact hd
  | succ k ih => exact row_done h hl (by omega) (ih (by omega))

theorem column_done {R S : Mat} {b n : ℕ} (h : Solves R S b n) {l : ℕ} (hb : b ≤ l) (hl : l < n) {cov : Mat}
    (hd : ∀ x y, b ≤ x → x < n → b ≤ y → y < n → (l < x ∨ l < y) → cov x y = S x y) :
    ∀ x y, b ≤ x → x < n → b ≤ y → y < n → (l ≤ x ∨ l ≤ y) → column R n b l cov x y = S x y := by
  have h1 : ∑ j ∈ Finset.Ico (l + 1) n, R l j * cov j l = ∑ j ∈ Finset.Ico (l + 1) n, R l j * S j l := by
    refine Finset.sum_congr rfl fun j hj => ?_
    rw [Finset.mem_Ico] at hj
    rw [hd j l (by omega) (by omega) hb hl (by omega)]
  have hs := h.eqd l hb hl
  rw [Finset.sum_eq_sum_Ico_succ_bot (by omega)] at hs
  have hv : 1 / R l l * (1 / R l l - ∑ j ∈ Finset.Ico (l + 1) n, R l j * cov j l) = S l l := by
    have hne := h.diag l hb hl
    have e : 1 / R l l - ∑ j ∈ Finset.Ico (l + 1) n, R l j * S j l = R l l * S l l := by linarith
    rw [h1, e, ← mul_assoc, one_div, inv_mul_cancel₀ hne, one_mul]
  have h0 : Done S (set cov l l (1 / R l l * (1 / R l l - ∑ j ∈ Finset.Ico (l + 1) n, R l j * cov j l))) b n l 0 := by
    intro x y hx hxn hy hyn hc
    rw [hv]
    unfold set
    by_cases hA : x = l ∧ y = l
    · rw [if_pos hA, hA.1, hA.2]
    · rw [if_neg hA]
      exact hd x y hx hxn hy hyn (by omega)
  have := rows_done h hl h0 (l - b) (by omega)
  intro x y hx hxn hy hyn hc
  exact this x y hx hxn hy hyn (by omega)

theorem columns_done {R S : Mat} {b n : ℕ} (h : Solves R S b n) (m : ℕ) (hm : b + m ≤ n) :
    ∀ x y, b ≤ x → x < n → b ≤ y → y < n → (n ≤ x + m ∨ n ≤ y + m) → columns R n b m x y = S x y := by
  induction m with
  | zero => intro x y _ _ _ _ _; omega
  | succ m ih =>
    intro x y hx hxn hy hyn hc
    refine column_done h (by omega) (by omega) (fun x y hx hxn hy hyn hc => ?_) x y hx hxn hy hyn (by omega)
    exact ih (by omega) x y hx hxn hy hyn (by omega)

end Kalibr.RCov
