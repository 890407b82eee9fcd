import Verif.Stats.Model
import Mathlib.MeasureTheory.Measure.Lebesgue.Basic

/-!
# The samples of the randomizer

Source: `Randomizer.tpp` in
`/repo/aslam_incremental_calibration/aslam_incremental_calibration/include/aslam_incremental_calibration/statistics/`,
for `Randomizer<double>`.

Simplifications: exact real arithmetic; the draws `random() / RAND_MAX` are a list of numbers of `[0, 1]` given as an
argument, and a probability is the measure of the draws that lead to a result.  `sampleNormal` and `sampleGamma` are not
modelled; `sampleUniform` is in `Verif/Stats/Uniform.lean`.
-/

namespace Kalibr.Stats

open MeasureTheory

/-! ## Model -/

/-- The result of a sampler on a list of draws: an exception, not finished with these draws, or a value and the draws
that are left. -/
inductive Draw (α : Type) where
  | raise
  | more
  | got (a : α) (rest : List ℝ)

/-- The loops of `sampleExponential` and `sampleGeometric`, `Randomizer.tpp` 184-188 and 199-203: draw until the draw is
not zero. -/
noncomputable def nonzero : List ℝ → Draw ℝ
  | [] => .more
  | u :: us => if u = 0 then nonzero us else .got u us

/-- `sampleExponential`, lines 176-190. -/
noncomputable def sampleExponential (rate : ℝ) (us : List ℝ) : Draw ℝ :=
  if rate ≤ 0 then .raise
  else match nonzero us with
    | .got u rest => .got (-Real.log u / rate) rest
    | .more => .more
    | .raise => .raise

/-- `sampleGeometric`, lines 192-205; for the probability one the logarithm of zero is the negative infinity, and the
quotient zero. -/
noncomputable def sampleGeometric (p : ℝ) (us : List ℝ) : Draw ℤ :=
  if p ≤ 0 ∨ p > 1 then .raise
  else match nonzero us with
    | .got u rest => .got (if p = 1 then 0 else ⌊Real.log u / Real.log (1 - p)⌋) rest
    | .more => .more
    | .raise => .raise

/-- The loop of `samplePoisson`, lines 169-173; `k` is the number of draws so far. -/
noncomputable def poissonLoop (l : ℝ) : ℕ → ℝ → List ℝ → Draw ℕ
  | _, _, [] => .more
  | k, p, u :: us => if p * u > l then poissonLoop l (k + 1) (p * u) us else .got (k + 1 - 1) us

/-- `samplePoisson`, lines 160-174. -/
noncomputable def samplePoisson (mean : ℝ) (us : List ℝ) : Draw ℕ :=
  if mean ≤ 0 then .raise else poissonLoop (Real.exp (-mean)) 0 1 us

/-- The loop of `sampleCategorical`, lines 152-157; `i` is the index of the loop. -/
noncomputable def catLoop (u : ℝ) : ℝ → ℕ → List ℝ → ℕ
  | _, i, [] => i - 1
  | sum, i, p :: ps => if u > sum then catLoop u (sum + p) (i + 1) ps else i - 1

/-- `sampleCategorical`, lines 139-158, for one draw; reading the first probability of none is not reached. -/
noncomputable def sampleCategorical (ps : List ℝ) (u : ℝ) : Option ℕ :=
  if |ps.sum - 1| > 1 / 10 ^ 12 ∨ ∃ p ∈ ps, p < 0 then none
  else match ps with
    | [] => none
    | p :: ps => some (catLoop u p 1 ps)

/-! ## Exponential and geometric samples -/

theorem nonzero_got (us : List ℝ) (u : ℝ) (rest : List ℝ) :
    nonzero us = .got u rest ↔ u ≠ 0 ∧ ∃ k, us = List.replicate k 0 ++ u :: rest := by
  induction us with
  | nil => simp [nonzero]
  | cons v us ih =>
    rw [nonzero]
    by_cases h : v = 0
    · rw [if_pos h, ih, h]
      constructor
      · rintro ⟨h1, k, rfl⟩; exact ⟨h1, k + 1, rfl⟩
      · rintro ⟨h1, k, hk⟩
        cases k with
        | zero => simp at hk; exact absurd hk.1.symm h1
        | succ k => exact ⟨h1, k, by simpa [List.replicate_succ] using hk⟩
    · rw [if_neg h]
      constructor
      · intro h1
        injection h1 with h1 h2
        exact ⟨h1 ▸ h, 0, by simp [h1, h2]⟩
      · rintro ⟨h1, k, hk⟩
        cases k with
        | zero => simp at hk; rw [hk.1, hk.2]
        | succ k => simp [List.replicate_succ] at hk; exact absurd hk.1 h

/-- C150: an exponential sample is refused exactly when the rate is not positive; the draws that are zero are passed over,
and the sample is at most `x` for the part `1 - exp (- rate x)` of the first draw that is not. -/
theorem C150_exponential (rate : ℝ) :
    ((∃ us, sampleExponential rate us = .raise) ↔ rate ≤ 0) ∧
    (0 < rate → ∃ f : ℝ → ℝ,
      (∀ u ≠ 0, ∀ k rest, sampleExponential rate (List.replicate k 0 ++ u :: rest) = .got (f u) rest) ∧
      (∀ u ∈ Set.Ioc (0 : ℝ) 1, 0 ≤ f u) ∧
      ∀ x, 0 ≤ x → volume {u : ℝ | u ∈ Set.Ioc 0 1 ∧ f u ≤ x} = ENNReal.ofReal (1 - Real.exp (-rate * x))) := by
  constructor
  · constructor
    · rintro ⟨us, h⟩
      by_contra hr
      unfold sampleExponential at h
      rw [if_neg hr] at h
      have h1 : ∀ us, nonzero us ≠ .raise := by
        intro us
        induction us with
        | nil => simp [nonzero]
        | cons v us ih =>
          rw [nonzero]
          by_cases hv : v = 0
          · rw [if_pos hv]; exact ih
          · rw [if_neg hv]; simp
      cases h2 : nonzero us with
      | raise => exact h1 us h2
      | more => rw [h2] at h; simp at h
      | got u rest => rw [h2] at h; simp at h
    · intro h
      exact ⟨[], if_pos h⟩
  · intro hr
    refine ⟨fun u => -Real.log u / rate, ?_, ?_, ?_⟩
    · intro u hu k rest
      unfold sampleExponential
      rw [if_neg (not_le.2 hr), (nonzero_got _ u rest).2 ⟨hu, k, rfl⟩]
    · intro u hu
      exact div_nonneg (neg_nonneg.2 (Real.log_nonpos hu.1.le hu.2)) hr.le
    · intro x hx
      have h1 : {u : ℝ | u ∈ Set.Ioc 0 1 ∧ -Real.log u / rate ≤ x} = Set.Icc (Real.exp (-rate * x)) 1 := by
        ext u
        simp only [Set.mem_ofPred_eq, Set.mem_Ioc, Set.mem_Icc]
        constructor
        · rintro ⟨⟨h1, h2⟩, h3⟩
          refine ⟨?_, h2⟩
          rw [div_le_iff₀ hr] at h3
          exact (Real.le_log_iff_exp_le h1).1 (by linarith)
        · rintro ⟨h1, h2⟩
          have h3 : 0 < u := lt_of_lt_of_le (Real.exp_pos _) h1
          refine ⟨⟨h3, h2⟩, ?_⟩
          rw [div_le_iff₀ hr]
          have := (Real.le_log_iff_exp_le h3).2 h1
          linarith
      rw [h1, Real.volume_Icc]

/-- C150: a geometric sample is refused exactly when the probability is not in `(0, 1]`; the draws that are zero are
passed over, and the sample is `k` for the part `(1 - p) ^ k p` of the first draw that is not. -/
theorem C150_geometric (p : ℝ) :
    ((p ≤ 0 ∨ 1 < p) → ∀ us, sampleGeometric p us = .raise) ∧
    (0 < p → p ≤ 1 → ∃ f : ℝ → ℤ,
      (∀ u ≠ 0, ∀ k rest, sampleGeometric p (List.replicate k 0 ++ u :: rest) = .got (f u) rest) ∧
      (∀ u ∈ Set.Ioc (0 : ℝ) 1, 0 ≤ f u) ∧
      ∀ k : ℕ, volume {u : ℝ | u ∈ Set.Ioc 0 1 ∧ f u = k} = ENNReal.ofReal ((1 - p) ^ k * p)) := by
  constructor
  · intro h us
    exact if_pos h
  · intro hp hp1
    refine ⟨fun u => if p = 1 then 0 else ⌊Real.log u / Real.log (1 - p)⌋, ?_, ?_, ?_⟩
    · intro u hu k rest
      unfold sampleGeometric
      rw [if_neg (by push Not; exact ⟨hp, hp1⟩), (nonzero_got _ u rest).2 ⟨hu, k, rfl⟩]
    · intro u hu
      simp only
      by_cases h1 : p = 1
      · rw [if_pos h1]
      · rw [if_neg h1]
        have h2 : p < 1 := lt_of_le_of_ne hp1 h1
        exact Int.floor_nonneg.2 (div_nonneg_of_nonpos (Real.log_nonpos hu.1.le hu.2)
          (Real.log_nonpos (by linarith) (by linarith)))
    · intro k
      by_cases h1 : p = 1
      · subst h1
        simp only [if_true]
        cases k with
        | zero =>
          have : {u : ℝ | u ∈ Set.Ioc 0 1 ∧ (0 : ℤ) = ((0 : ℕ) : ℤ)} = Set.Ioc 0 1 := by ext u; simp
          rw [this, Real.volume_Ioc]
          simp
        | succ k =>
          have : {u : ℝ | u ∈ Set.Ioc 0 1 ∧ (0 : ℤ) = ((k + 1 : ℕ) : ℤ)} = ∅ := by
            ext u
            simp only [Set.mem_ofPred_eq, Set.mem_empty_iff_false, iff_false]
            rintro ⟨_, h⟩
            omega
          rw [this]
          simp
      · have h2 : p < 1 := lt_of_le_of_ne hp1 h1
        have hq : 0 < 1 - p := by linarith
        have hl : Real.log (1 - p) < 0 := Real.log_neg hq (by linarith)
        have hset : {u : ℝ | u ∈ Set.Ioc 0 1 ∧ (if p = 1 then 0 else ⌊Real.log u / Real.log (1 - p)⌋) = (k : ℤ)} =
            Set.Ioc ((1 - p) ^ (k + 1)) ((1 - p) ^ k) := by
          ext u
          simp only [Set.mem_ofPred_eq, Set.mem_Ioc, if_neg h1, Int.floor_eq_iff]
          have hlog : ∀ j : ℕ, (j : ℝ) * Real.log (1 - p) = Real.log ((1 - p) ^ j) := fun j => (Real.log_pow _ _).symm
          constructor
          · rintro ⟨⟨h3, h4⟩, h5, h6⟩
            rw [le_div_iff_of_neg hl] at h5
            rw [div_lt_iff_of_neg hl] at h6
            push_cast at h5 h6
            constructor
            · rw [← Real.log_lt_log_iff (by positivity) h3, ← hlog]
              push_cast
              exact h6
            · rw [← Real.log_le_log_iff h3 (by positivity), ← hlog]
              exact h5
          · rintro ⟨h3, h4⟩
            have h5 : 0 < u := lt_trans (by positivity) h3
            refine ⟨⟨h5, h4.trans (pow_le_one₀ hq.le (by linarith))⟩, ?_, ?_⟩
            · rw [le_div_iff_of_neg hl]
              push_cast
              rw [hlog]
              exact Real.log_le_log h5 h4
            · rw [div_lt_iff_of_neg hl]
              push_cast
              rw [show (k : ℝ) + 1 = ((k + 1 : ℕ) : ℝ) by push_cast; rfl, hlog]
              exact Real.log_lt_log (by positivity) h3
        simp only
        rw [hset, Real.volume_Ioc]
        congr 1
        ring

/-! ## Poisson samples -/

theorem poissonLoop_got (l : ℝ) (k : ℕ) (p : ℝ) (us : List ℝ) (m : ℕ) (rest : List ℝ) :
    poissonLoop l k p us = .got m rest ↔
      ∃ j, m = k + j ∧ j < us.length ∧ (∀ i, 0 < i → i ≤ j → l < p * (us.take i).prod) ∧
        p * (us.take (j + 1)).prod ≤ l ∧ rest = us.drop (j + 1) := by
  induction us generalizing k p with
  | nil => simp [poissonLoop]
  | cons u us ih =>
    rw [poissonLoop]
    by_cases h : p * u > l
    · rw [if_pos h, ih]
      constructor
      · rintro ⟨j, rfl, h1, h2, h3, rfl⟩
        refine ⟨j + 1, by omega, by simpa using h1, ?_, ?_, rfl⟩
        · intro i hi hij
          obtain ⟨i, rfl⟩ := Nat.exists_eq_succ_of_ne_zero hi.ne'
          rw [Nat.succ_eq_add_one, List.take_succ_cons, List.prod_cons, ← mul_assoc]
          rcases Nat.eq_zero_or_pos i with h4 | h4
          · subst h4; simpa using h
          · exact h2 i h4 (by omega)
        · rw [List.take_succ_cons, List.prod_cons, ← mul_assoc]; exact h3
      · rintro ⟨j, rfl, h1, h2, h3, rfl⟩
        cases j with
        | zero =>
          simp at h3
          linarith
        | succ j =>
          refine ⟨j, by omega, by simpa using h1, ?_, ?_, rfl⟩
          · intro i hi hij
            have := h2 (i + 1) (by omega) (by omega)
            rwa [List.take_succ_cons, List.prod_cons, ← mul_assoc] at this
          · rwa [List.take_succ_cons, List.prod_cons, ← mul_assoc] at h3
    · rw [if_neg h]
      constructor
      · intro h1
        injection h1 with h1 h2
        refine ⟨0, by omega, by simp, by intro i h3 h4; omega, by simpa using not_lt.1 h, by simp [h2]⟩
      · rintro ⟨j, rfl, h1, h2, h3, rfl⟩
        cases j with
        | zero => simp
        | succ j =>
          have := h2 1 (by omega) (by omega)
          simp at this
          exact absurd this h

theorem prod_exp (us : List ℝ) (h : ∀ u ∈ us, 0 < u) : us.prod = Real.exp (-(us.map fun u => -Real.log u).sum) := by
  induction us with
  | nil => simp
  | cons u us ih =>
    rw [List.prod_cons, ih (fun v hv => h v (by simp [hv])), List.map_cons, List.sum_cons]
    nth_rewrite 1 [← Real.exp_log (h u (by simp))]
    rw [← Real.exp_add]
    congr 1
    ring

/-- C150: a Poisson sample is refused exactly when the mean is not positive; otherwise it is the number of arrivals before
the time `mean` when the draws give, as `- log u`, the waiting times between arrivals at the rate one.  It uses one draw
more than its value. -/
theorem C150_poisson (mean : ℝ) (us : List ℝ) :
    (mean ≤ 0 → samplePoisson mean us = .raise) ∧
    (0 < mean → (∀ u ∈ us, 0 < u ∧ u ≤ 1) → ∀ k rest, samplePoisson mean us = .got k rest ↔
      k < us.length ∧ ((us.take k).map fun u => -Real.log u).sum < mean ∧
        mean ≤ ((us.take (k + 1)).map fun u => -Real.log u).sum ∧ rest = us.drop (k + 1)) := by
  constructor
  · intro h; exact if_pos h
  · intro hm hu k rest
    unfold samplePoisson
    rw [if_neg (not_le.2 hm), poissonLoop_got]
    have hpos : ∀ i, ∀ u ∈ us.take i, 0 < u := fun i u hu' => (hu u (List.mem_of_mem_take hu')).1
    have h1 : ∀ i, Real.exp (-mean) < 1 * (us.take i).prod ↔ ((us.take i).map fun u => -Real.log u).sum < mean := by
      intro i
      rw [one_mul, prod_exp _ (hpos i), Real.exp_lt_exp]
      constructor <;> intro h <;> linarith
    have h2 : ∀ i, 1 * (us.take i).prod ≤ Real.exp (-mean) ↔ mean ≤ ((us.take i).map fun u => -Real.log u).sum := by
      intro i
      rw [← not_lt, h1, not_lt]
    have hmono : ∀ i j, i ≤ j → ((us.take i).map fun u => -Real.log u).sum ≤ ((us.take j).map fun u => -Real.log u).sum := by
      intro i j hij
      have : us.take j = us.take i ++ (us.take j).drop i := by
        conv_lhs => rw [← List.take_append_drop i (us.take j)]
        rw [List.take_take, min_eq_left hij]
      rw [this, List.map_append, List.sum_append]
      refine le_add_of_nonneg_right (List.sum_nonneg fun y hy => ?_)
      obtain ⟨u, hu', rfl⟩ := List.mem_map.1 hy
      have h3 := hu u (List.mem_of_mem_take (List.mem_of_mem_drop hu'))
      exact neg_nonneg.2 (Real.log_nonpos h3.1.le h3.2)
    constructor
    · rintro ⟨j, rfl, h3, h4, h5, rfl⟩
      rw [zero_add]
      refine ⟨h3, ?_, (h2 _).1 h5, rfl⟩
      rcases Nat.eq_zero_or_pos j with h6 | h6
      · subst h6; simpa using hm
      · exact (h1 j).1 (h4 j h6 le_rfl)
    · rintro ⟨h3, h4, h5, rfl⟩
      exact ⟨k, by omega, h3, fun i _ hi => (h1 i).2 (lt_of_le_of_lt (hmono i k hi) h4), (h2 _).2 h5, rfl⟩

/-! ## Categorical samples -/

theorem catLoop_eq (u c : ℝ) (i : ℕ) (ps : List ℝ) (h : ∀ p ∈ ps, 0 ≤ p) (j : ℕ) :
    catLoop u c (i + 1) ps = i + j ↔
      j ≤ ps.length ∧ (j = 0 ∨ c + (ps.take (j - 1)).sum < u) ∧ (j = ps.length ∨ u ≤ c + (ps.take j).sum) := by
  induction ps generalizing c i j with
  | nil =>
    rw [catLoop]
    simp
    omega
  | cons p ps ih =>
    have hps : ∀ q ∈ ps, 0 ≤ q := fun q hq => h q (by simp [hq])
    have hp : 0 ≤ p := h p (by simp)
    have hsum : ∀ k, 0 ≤ (ps.take k).sum := fun k => List.sum_nonneg fun q hq => hps q (List.mem_of_mem_take hq)
    rw [catLoop]
    by_cases hu : u > c
    · rw [if_pos hu]
      cases j with
      | zero =>
        have h1 := ih (c + p) (i + 1) hps
        have h2 : i + 1 ≤ catLoop u (c + p) (i + 1 + 1) ps := by
          clear h1 ih h hps hsum
          generalize c + p = c'
          have h3 : ∀ (i : ℕ) (c : ℝ), i ≤ catLoop u c (i + 1) ps := by
            induction ps with
            | nil => intro i c; rw [catLoop]; omega
            | cons q ps ih =>
              intro i c
              rw [catLoop]
              by_cases hq : u > c
              · rw [if_pos hq]; exact le_trans (by omega) (ih (i + 1) (c + q))
              · rw [if_neg hq]; omega
          exact h3 (i + 1) c'
        constructor
        · intro h3; omega
        · rintro ⟨_, _, h3⟩
          rcases h3 with h3 | h3
          · simp at h3
          · simp at h3; linarith
      | succ j =>
        rw [show i + (j + 1) = i + 1 + j by ring, ih (c + p) (i + 1) hps j]
        constructor
        · rintro ⟨h1, h2, h3⟩
          refine ⟨by simpa using h1, Or.inr ?_, ?_⟩
          · rcases h2 with h2 | h2
            · subst h2; simpa using hu
            · cases j with
              | zero => simpa using hu
              | succ j =>
                simp only [Nat.add_sub_cancel] at h2 ⊢
                rw [List.take_succ_cons, List.sum_cons]
                linarith
          · rcases h3 with h3 | h3
            · left; simpa using h3
            · right; rw [List.take_succ_cons, List.sum_cons]; linarith
        · rintro ⟨h1, h2, h3⟩
          refine ⟨by simpa using h1, ?_, ?_⟩
          · cases j with
            | zero => left; rfl
            | succ j =>
              right
              rcases h2 with h2 | h2
              · omega
              · simp only [Nat.add_sub_cancel] at h2 ⊢
                rw [List.take_succ_cons, List.sum_cons] at h2
                linarith
          · rcases h3 with h3 | h3
            · left; simpa using h3
            · right; rw [List.take_succ_cons, List.sum_cons] at h3; linarith
    · rw [if_neg hu]
      constructor
      · intro h1
        have : j = 0 := by omega
        subst this
        refine ⟨Nat.zero_le _, Or.inl rfl, Or.inr ?_⟩
        simpa using not_lt.1 hu
      · rintro ⟨h1, h2, h3⟩
        cases j with
        | zero => omega
        | succ j =>
          exfalso
          rcases h2 with h2 | h2
          · omega
          · simp only [Nat.add_sub_cancel] at h2
            cases j with
            | zero => simp at h2; exact hu h2
            | succ j =>
              rw [List.take_succ_cons, List.sum_cons] at h2
              have := hsum j
              push Not at hu
              linarith

/-- C150: a categorical sample is refused exactly when a probability is negative or their sum differs from one by more
than `1e-12`; otherwise it is one of the categories. -/
theorem C150_categorical_range (ps : List ℝ) (u : ℝ) :
    (sampleCategorical ps u = none ↔ 1 / 10 ^ 12 < |ps.sum - 1| ∨ ∃ p ∈ ps, p < 0) ∧
    ∀ i, sampleCategorical ps u = some i → i < ps.length := by
  unfold sampleCategorical
  by_cases h : |ps.sum - 1| > 1 / 10 ^ 12 ∨ ∃ p ∈ ps, p < 0
  · rw [if_pos h]; exact ⟨⟨fun _ => h, fun _ => rfl⟩, fun i hi => by cases hi⟩
  · rw [if_neg h]
    cases ps with
    | nil =>
      exfalso
      apply h
      left
      norm_num
    | cons p ps =>
      simp only
      refine ⟨⟨fun h1 => (by cases h1), fun h1 => absurd h1 h⟩, ?_⟩
      intro i hi
      have hi := Option.some.inj hi
      push Not at h
      have := (catLoop_eq u p 0 ps (fun q hq => h.2 q (by simp [hq])) i).1 (by rw [zero_add, zero_add]; exact hi)
      simp only [List.length_cons]
      omega

/-- C150: for probabilities whose sum is one, every category comes up with its probability. -/
theorem C150_categorical (ps : List ℝ) (h0 : ∀ p ∈ ps, 0 ≤ p) (h1 : ps.sum = 1) (i : ℕ) (hi : i < ps.length) :
    volume {u : ℝ | u ∈ Set.Icc 0 1 ∧ sampleCategorical ps u = some i} = ENNReal.ofReal ps[i] := by
  cases ps with
  | nil => simp at hi
  | cons p ps =>
    have hps : ∀ q ∈ ps, 0 ≤ q := fun q hq => h0 q (by simp [hq])
    have hp : 0 ≤ p := h0 p (by simp)
    have hsum : ∀ k, 0 ≤ (ps.take k).sum := fun k => List.sum_nonneg fun q hq => hps q (List.mem_of_mem_take hq)
    have hle : ∀ k, p + (ps.take k).sum ≤ 1 := by
      intro k
      rw [List.sum_cons] at h1
      have h2 : ps.sum = (ps.take k).sum + (ps.drop k).sum := by rw [← List.sum_append, List.take_append_drop]
      have h3 : 0 ≤ (ps.drop k).sum := List.sum_nonneg fun q hq => hps q (List.mem_of_mem_drop hq)
      linarith
    have hs : ∀ u, sampleCategorical (p :: ps) u = some i ↔
        (i = 0 ∨ p + (ps.take (i - 1)).sum < u) ∧ (i = ps.length ∨ u ≤ p + (ps.take i).sum) := by
      intro u
      unfold sampleCategorical
      rw [if_neg (by
        push Not
        exact ⟨by rw [h1]; norm_num, h0⟩)]
      simp only [Option.some.injEq]
      have := catLoop_eq u p 0 ps hps i
      rw [zero_add, zero_add] at this
      rw [this]
      simp only [List.length_cons] at hi
      constructor
      · rintro ⟨_, h⟩; exact h
      · intro h; exact ⟨by omega, h⟩
    have hlast : i = ps.length → p + (ps.take i).sum = 1 := by
      rintro rfl
      rw [List.take_length, ← List.sum_cons, h1]
    have hs' : ∀ u ≤ (1 : ℝ), sampleCategorical (p :: ps) u = some i ↔
        (i = 0 ∨ p + (ps.take (i - 1)).sum < u) ∧ u ≤ p + (ps.take i).sum := by
      intro u hu
      rw [hs]
      constructor
      · rintro ⟨h2, h3⟩
        refine ⟨h2, ?_⟩
        rcases h3 with h3 | h3
        · rw [hlast h3]; exact hu
        · exact h3
      · rintro ⟨h2, h3⟩; exact ⟨h2, Or.inr h3⟩
    cases i with
    | zero =>
      have hset : {u : ℝ | u ∈ Set.Icc 0 1 ∧ sampleCategorical (p :: ps) u = some 0} = Set.Icc 0 p := by
        ext u
        simp only [Set.mem_ofPred_eq, Set.mem_Icc]
        constructor
        · rintro ⟨⟨h2, h3⟩, h4⟩
          have := ((hs' u h3).1 h4).2
          simp at this
          exact ⟨h2, this⟩
        · rintro ⟨h2, h3⟩
          have h5 := hle 0
          simp at h5
          exact ⟨⟨h2, h3.trans h5⟩, (hs' u (h3.trans h5)).2 ⟨Or.inl rfl, by simpa using h3⟩⟩
      rw [hset, Real.volume_Icc]
      simp
    | succ i =>
      have hi' : i < ps.length := by simpa using hi
      have hset : {u : ℝ | u ∈ Set.Icc 0 1 ∧ sampleCategorical (p :: ps) u = some (i + 1)} =
          Set.Ioc (p + (ps.take i).sum) (p + (ps.take (i + 1)).sum) := by
        ext u
        simp only [Set.mem_ofPred_eq, Set.mem_Icc, Set.mem_Ioc]
        constructor
        · rintro ⟨⟨h2, h3⟩, h4⟩
          obtain ⟨h5, h6⟩ := (hs' u h3).1 h4
          exact ⟨h5.resolve_left (by omega), h6⟩
        · rintro ⟨h2, h3⟩
          have h5 := hle (i + 1)
          have h6 := hsum i
          exact ⟨⟨by linarith, h3.trans h5⟩, (hs' u (h3.trans h5)).2 ⟨Or.inr h2, h3⟩⟩
      rw [hset, Real.volume_Ioc, List.getElem_cons_succ, List.take_add_one, List.getElem?_eq_getElem hi', Option.toList_some, List.sum_append,
        List.sum_singleton]
      congr 1
      ring

/-- C150 is false in single draws: a category of probability zero comes up when the draw is zero. -/
theorem C150_categorical_counterexample : sampleCategorical [0, 1] 0 = some 0 := by
  unfold sampleCategorical
  rw [if_neg (by norm_num)]
  simp only [catLoop]
  rw [if_neg (lt_irrefl _)]

example : (∀ p ∈ [(1 / 4 : ℝ), 0, 3 / 4], 0 ≤ p) ∧ [(1 / 4 : ℝ), 0, 3 / 4].sum = 1 := by
  constructor
  · intro p hp
    simp at hp
    rcases hp with rfl | rfl | rfl <;> norm_num
  · norm_num

example : ∀ u ∈ [(1 / 2 : ℝ), 1, 1 / 3], 0 < u ∧ u ≤ 1 := by
  intro u hu
  simp at hu
  rcases hu with rfl | rfl | rfl <;> norm_num

end Kalibr.Stats
