import Verif.Init.Model
import Mathlib.Data.List.Sort
import Mathlib.Data.List.GetD
import Mathlib.Tactic.Linarith

/-!
# The median of the baselines (C143)
-/

namespace Kalibr.Init

open Kalibr.Kin

theorem sorted_ge {s : List ℝ} (hs : s.Pairwise (· ≤ ·)) {lo : ℝ} {j : ℕ} (hj : j < s.length)
    (hc : s.countP (fun x => decide (x < lo)) ≤ j) : lo ≤ s[j] := by
  by_contra hlt
  push Not at hlt
  have hall : ∀ x ∈ s.take (j + 1), decide (x < lo) = true := by
    intro x hx
    obtain ⟨i, hi, rfl⟩ := List.getElem_of_mem hx
    rw [List.length_take] at hi
    rw [List.getElem_take, decide_eq_true_eq]
    refine lt_of_le_of_lt ?_ hlt
    rcases Nat.lt_or_ge i j with h | h
    · exact List.pairwise_iff_getElem.1 hs i j (by omega) hj h
    · have : i = j := by omega
      subst this
      exact le_rfl
  have h1 : (s.take (j + 1)).countP (fun x => decide (x < lo)) = (s.take (j + 1)).length := List.countP_eq_length.2 hall
  have h2 := (List.take_sublist (j + 1) s).countP_le (p := fun x => decide (x < lo))
  rw [h1, List.length_take] at h2
  omega

theorem sorted_le {s : List ℝ} (hs : s.Pairwise (· ≤ ·)) {hi : ℝ} {j : ℕ} (hj : j < s.length)
    (hc : s.countP (fun x => decide (hi < x)) < s.length - j) : s[j] ≤ hi := by
  by_contra hlt
  push Not at hlt
  have hall : ∀ x ∈ s.drop j, decide (hi < x) = true := by
    intro x hx
    obtain ⟨i, hi', rfl⟩ := List.getElem_of_mem hx
    rw [List.length_drop] at hi'
    rw [List.getElem_drop, decide_eq_true_eq]
    refine lt_of_lt_of_le hlt ?_
    rcases Nat.eq_zero_or_pos i with h | h
    · subst h
      exact le_rfl
    · exact List.pairwise_iff_getElem.1 hs j (j + i) hj (by omega) (by omega)
  have h1 : (s.drop j).countP (fun x => decide (hi < x)) = (s.drop j).length := List.countP_eq_length.2 hall
  have h2 := (List.drop_sublist j s).countP_le (p := fun x => decide (hi < x))
  rw [h1, List.length_drop] at h2
  omega

theorem count_compl (p q : ℝ → Bool) (hpq : ∀ x, p x = true → q x = true → False) (l : List ℝ) :
    l.countP p + l.countP q ≤ l.length := by
  induction l with
  | nil => simp
  | cons a l ih =>
    rw [List.countP_cons, List.countP_cons, List.length_cons]
    have := hpq a
    cases hp : p a <;> cases hq : q a <;> simp_all <;> omega

/-- **C143, robustness of the median.** If more than half of the values lie in an interval, so does the median: views with a wrong
pose do not carry it away. -/
theorem C143_median (l : List ℝ) (lo hi : ℝ) (h : l.length < 2 * l.countP fun x => decide (lo ≤ x ∧ x ≤ hi)) :
    lo ≤ median l ∧ median l ≤ hi := by
  obtain ⟨s, hs⟩ : ∃ s, s = l.insertionSort (· ≤ ·) := ⟨_, rfl⟩
  have hp : s.Perm l := by rw [hs]; exact List.perm_insertionSort _ l
  have hsort : s.Pairwise (· ≤ ·) := by rw [hs]; exact List.pairwise_insertionSort (· ≤ ·) l
  have hlen : s.length = l.length := hp.length_eq
  have hlow : l.countP (fun x => decide (x < lo)) + l.countP (fun x => decide (lo ≤ x ∧ x ≤ hi)) ≤ l.length := by
    apply count_compl
    intro x h1 h2
    rw [decide_eq_true_eq] at h1 h2
    linarith [h2.1]
  have hhigh : l.countP (fun x => decide (hi < x)) + l.countP (fun x => decide (lo ≤ x ∧ x ≤ hi)) ≤ l.length := by
    apply count_compl
    intro x h1 h2
    rw [decide_eq_true_eq] at h1 h2
    linarith [h2.2]
  have ge : ∀ j (hj : j < s.length), l.length / 2 ≤ j + 1 - l.length % 2 → lo ≤ s[j] := by
    intro j hj hle
    apply sorted_ge hsort hj
    rw [hp.countP_eq]
    omega
  have le : ∀ j (hj : j < s.length), j ≤ l.length / 2 → s[j] ≤ hi := by
    intro j hj hle
    apply sorted_le hsort hj
    rw [hp.countP_eq]
    omega
  have hpos : 0 < l.length := by
    have := List.countP_le_length (p := fun x => decide (lo ≤ x ∧ x ≤ hi)) (l := l)
    omega
  unfold median
  simp only [← hs]
  by_cases hodd : l.length % 2 = 1
  · rw [if_pos hodd, List.getD_eq_getElem _ _ (by omega)]
    exact ⟨ge _ _ (by omega), le _ _ (by omega)⟩
  · rw [if_neg hodd, List.getD_eq_getElem _ _ (by omega), List.getD_eq_getElem _ _ (by omega)]
    have a1 := ge (l.length / 2 - 1) (by omega) (by omega)
    have a2 := ge (l.length / 2) (by omega) (by omega)
    have b1 := le (l.length / 2 - 1) (by omega) (by omega)
    have b2 := le (l.length / 2) (by omega) (by omega)
    exact ⟨by linarith, by linarith⟩

/-- `C143_median` speaks about something: two of three values are near one. -/
example : [1, 100, 11 / 10].length < 2 * [1, 100, 11 / 10].countP fun x : ℝ => decide (1 ≤ x ∧ x ≤ 2) := by
  rw [List.countP_cons, List.countP_cons, List.countP_cons, List.countP_nil]
  rw [if_pos (by norm_num), if_neg (by norm_num), if_pos (by norm_num)]
  simp

/-- The median of values more than half of which are one number is that number. -/
theorem median_of_most {α : Type} (l : List α) (f : α → ℝ) (P : α → Bool) (b : ℝ) (h : l.length < 2 * l.countP P)
    (hP : ∀ x ∈ l, P x = true → f x = b) : median (l.map f) = b := by
  have : l.countP P ≤ (l.map f).countP fun x => decide (b ≤ x ∧ x ≤ b) := by
    rw [List.countP_map]
    apply List.countP_mono_left
    intro x hx hp
    simp [hP x hx hp]
  obtain ⟨h1, h2⟩ := C143_median (l.map f) b b (by rw [List.length_map]; omega)
  exact le_antisymm h2 h1

end Kalibr.Init
