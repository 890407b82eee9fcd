import Verif.Stamp.Model
import Verif.Tactics
import Mathlib.Algebra.BigOperators.Group.List.Basic

/-!
# Theorems about time stamps and timers
-/

namespace Kalibr.Stamp

theorem trunc_ok {x : ℝ} (h0 : 0 ≤ x) (h1 : x < 2 ^ 63) : trunc x = .ok ⌊x⌋ := by
  unfold trunc
  rw [if_pos h0]
  dsimp only
  have a : 0 ≤ ⌊x⌋ := Int.floor_nonneg.mpr h0
  have b : ⌊x⌋ < 2 ^ 63 := Int.floor_lt.mpr (by exact_mod_cast h1)
  rw [if_pos ⟨by omega, b⟩]

/-- For every time from zero up to the end of `time_t`, the conversion to `timespec` gives a valid one that is at most a
nanosecond earlier and never later.  Missing for the full property: negative times, and times that are too large. -/
theorem C176_timespec_partial (x : ℝ) (h0 : 0 ≤ x) (h1 : x < 2 ^ 63) :
    ∃ s, toSpec x = .ok s ∧ s.valid ∧ s.seconds ≤ x ∧ x < s.seconds + 1 / 1000000000 := by
  have f0 : 0 ≤ x - ⌊x⌋ := sub_nonneg.mpr (Int.floor_le x)
  have f1 : x - ⌊x⌋ < 1 := by linarith [Int.lt_floor_add_one x]
  have g0 : 0 ≤ (x - ⌊x⌋) * 1000000000 := by positivity
  have g1 : (x - ⌊x⌋) * 1000000000 < 1000000000 := by linarith
  refine ⟨⟨⌊x⌋, ⌊(x - ⌊x⌋) * 1000000000⌋⟩, ?_, ⟨Int.floor_nonneg.mpr h0, Int.floor_nonneg.mpr g0, ?_⟩, ?_, ?_⟩
  · unfold toSpec
    rw [trunc_ok h0 h1]
    simp only [Out.bind]
    rw [trunc_ok g0 (by linarith)]
  · exact Int.floor_lt.mpr (by exact_mod_cast g1)
  · have := Int.floor_le ((x - ⌊x⌋) * 1000000000)
    unfold Spec.seconds
    dsimp only
    have : (⌊(x - ⌊x⌋) * 1000000000⌋ : ℝ) / 1000000000 ≤ x - ⌊x⌋ := by
      rw [div_le_iff₀ (by norm_num)]; exact this
    linarith
  · have := Int.lt_floor_add_one ((x - ⌊x⌋) * 1000000000)
    unfold Spec.seconds
    dsimp only
    have : x - ⌊x⌋ < ((⌊(x - ⌊x⌋) * 1000000000⌋ : ℝ) + 1) / 1000000000 := by
      rw [lt_div_iff₀ (by norm_num)]; exact this
    rw [add_div] at this
    linarith

/-- A time before the epoch that is not a whole number of seconds becomes a `timespec` no function takes. -/
theorem C176_negative_counterexample : ∃ s, toSpec (-1 / 2) = .ok s ∧ ¬ s.valid := by
  refine ⟨⟨0, -500000000⟩, ?_, by simp [Spec.valid]⟩
  have c : ⌈(-1 / 2 : ℝ)⌉ = 0 := by rw [Int.ceil_eq_iff]; norm_num
  have tr (x : ℝ) (z : ℤ) (hx : x < 0) (hz : ⌈x⌉ = z) (hr : -2 ^ 63 ≤ z ∧ z < 2 ^ 63) : trunc x = .ok z := by
    unfold trunc
    have e : (if 0 ≤ x then ⌊x⌋ else ⌈x⌉) = z := by rw [if_neg (not_le.mpr hx), hz]
    rw [e]
    exact if_pos hr
  have t : trunc (-1 / 2) = .ok 0 := tr _ _ (by norm_num) c (by norm_num)
  unfold toSpec
  rw [t]
  simp only [Out.bind]
  have e : ((-1 / 2 : ℝ) - ((0 : ℤ) : ℝ)) * 1000000000 = ((-500000000 : ℤ) : ℝ) := by norm_num
  rw [e]
  rw [tr _ (-500000000) (by norm_num) (Int.ceil_intCast _) (by norm_num)]

/-- A time that is too large for `time_t` is undefined behaviour: so is every finite sleep and every timed wait of more
than that, though the functions take any number of seconds. -/
theorem C176_huge_counterexample (x : ℝ) (h : 2 ^ 63 ≤ x) : toSpec x = .ub ∧ sleep x = .ub := by
  have h0 : (0 : ℝ) < x := lt_of_lt_of_le (by positivity) h
  have t : trunc x = .ub := by
    unfold trunc
    rw [if_pos h0.le]
    dsimp only
    have : (2 : ℤ) ^ 63 ≤ ⌊x⌋ := Int.le_floor.mpr (by exact_mod_cast h)
    rw [if_neg (by omega)]
  have e : toSpec x = .ub := by unfold toSpec; rw [t]; rfl
  refine ⟨e, ?_⟩
  unfold sleep
  rw [if_pos h0, e]; rfl

/-- `stop` asks for a sleep exactly if the period is not over, and if the system sleeps for at least as long as it is asked
to, `stop` reads the clock at most a nanosecond before the period is over.  The time since the start is added. -/
theorem C176_stop (t : Timer) (period now later : ℝ) (h : t.left period now < 2 ^ 63) (hl : now ≤ later) :
    ∃ s, t.stop period now later = .ok (s, ⟨t.start, t.period + (later - t.start)⟩) ∧
      (s = none ↔ t.start + period ≤ now) ∧
      ((∀ sp, s = some sp → sp.valid ∧ now + sp.seconds ≤ later) → t.start + period - 1 / 1000000000 < later) := by
  unfold Timer.stop sleep
  by_cases hp : 0 < t.left period now
  · rw [if_pos hp]
    obtain ⟨s, e, v, -, lt⟩ := C176_timespec_partial _ hp.le h
    refine ⟨some s, ?_, ?_, ?_⟩
    · rw [e]; rfl
    · unfold Timer.left at hp
      simp only [reduceCtorEq, false_iff, not_le]
      linarith
    · intro hs
      have := (hs s rfl).2
      unfold Timer.left at lt
      linarith
  · rw [if_neg hp]
    unfold Timer.left at hp
    refine ⟨none, rfl, ?_, ?_⟩
    · simp only [true_iff]; linarith
    · intro _
      have : (0 : ℝ) < 1 / 1000000000 := by norm_num
      linarith

/-- A timer that is started without a reset and stopped again and again measures the sum of the times between; one that is
reset measures the last of them. -/
theorem C176_runs (t : Timer) (l : List (ℝ × ℝ)) :
    (t.runs false l).period = t.period + (l.map fun q => q.2 - q.1).sum ∧
    ∀ q, (t.runs true (l ++ [q])).period = q.2 - q.1 := by
  constructor
  · induction l generalizing t with
    | nil => simp [Timer.runs]
    | cons q l ih =>
      obtain ⟨a, b⟩ := q
      simp only [Timer.runs, ih, List.map_cons, List.sum_cons, Timer.begin, Timer.add, Bool.false_eq_true, if_false]
      ring
  · intro q
    induction l generalizing t with
    | nil => obtain ⟨a, b⟩ := q; simp [Timer.runs, Timer.begin, Timer.add, Timer.reset]
    | cons r l ih =>
      obtain ⟨a, b⟩ := r
      rw [List.cons_append]
      simp only [Timer.runs]
      exact ih _

/-- A timer that is stopped twice counts the time up to the first stop twice. -/
theorem C176_stop_twice_counterexample (t : Timer) (a b c : ℝ) :
    (((t.begin true a).add b).add c).period = (c - a) + (b - a) := by
  simp [Timer.begin, Timer.add, Timer.reset]; ring

/-- Times that meet the conditions. -/
example : ∃ s, toSpec (5 / 2) = .ok s ∧ s.valid ∧ s.seconds ≤ 5 / 2 ∧ 5 / 2 < s.seconds + 1 / 1000000000 :=
  C176_timespec_partial _ (by norm_num) (by norm_num)

example : (⟨10, 0⟩ : Timer).left 3 11 < 2 ^ 63 ∧ (11 : ℝ) ≤ 14 := by
  unfold Timer.left; norm_num

end Kalibr.Stamp
