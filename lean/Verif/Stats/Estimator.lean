import Verif.Stats.Normal

/-!
# The maximum likelihood estimator of the normal distribution of a number
-/

namespace Kalibr.Stats

open Matrix ProbabilityTheory

/-- A sum over a sample. -/
def total (f : ℝ → ℝ) (s : Sample ℝ) : ℝ := (s.map fun p => p.2 * f p.1).sum

/-- The sum of the weights. -/
def weight {P : Type} (s : Sample P) : ℝ := (s.map fun p => p.2).sum

theorem total_cons (f : ℝ → ℝ) (p : ℝ × ℝ) (s : Sample ℝ) : total f (p :: s) = p.2 * f p.1 + total f s := by simp [total]

theorem weight_cons {P : Type} (p : P × ℝ) (s : Sample P) : weight (p :: s) = p.2 + weight s := by simp [weight]

theorem wsum_total (f : ℝ → ℝ) (xs rs : List ℝ) : wsum f xs rs = total f (xs.zip rs) := by
  induction xs generalizing rs with
  | nil => simp [wsum, total]
  | cons x xs ih =>
    cases rs with
    | nil => simp [wsum, total]
    | cons r rs => rw [List.zip_cons_cons, total_cons, wsum, ih]

theorem zip_weight {P : Type} (xs : List P) (rs : List ℝ) (h : rs.length = xs.length) : rs.sum = weight (xs.zip rs) := by
  induction xs generalizing rs with
  | nil =>
    cases rs with
    | nil => simp [weight]
    | cons r rs => simp at h
  | cons x xs ih =>
    cases rs with
    | nil => simp at h
    | cons r rs =>
      rw [List.zip_cons_cons, weight_cons, List.sum_cons, ih rs (by simpa using h)]

theorem total_lin (a b c : ℝ) (s : Sample ℝ) :
    total (fun x => a * x ^ 2 + b * x + c) s = a * total (fun x => x ^ 2) s + b * total (fun x => x) s + c * weight s := by
  induction s with
  | nil => simp [total, weight]
  | cons p s ih =>
    simp only [total_cons, weight_cons, ih]
    ring

theorem total_quad (a : ℝ) (s : Sample ℝ) :
    total (fun x => (x - a) * (x - a)) s = total (fun x => x ^ 2) s - 2 * a * total (fun x => x) s + a ^ 2 * weight s := by
  have := total_lin 1 (-2 * a) (a ^ 2) s
  rw [show (fun x : ℝ => (x - a) * (x - a)) = fun x => 1 * x ^ 2 + (-2 * a) * x + a ^ 2 by funext x; ring, this]
  ring

theorem total_nonneg {f : ℝ → ℝ} (hf : ∀ x, 0 ≤ f x) {s : Sample ℝ} (hs : ∀ p ∈ s, 0 ≤ p.2) : 0 ≤ total f s := by
  refine List.sum_nonneg fun y hy => ?_
  obtain ⟨p, hp, rfl⟩ := List.mem_map.1 hy
  exact mul_nonneg (hs p hp) (hf _)

theorem total_zero {f : ℝ → ℝ} (hf : ∀ x, 0 ≤ f x) {s : Sample ℝ} (hs : ∀ p ∈ s, 0 ≤ p.2) (h : total f s = 0) :
    ∀ p ∈ s, p.2 * f p.1 = 0 := by
  induction s with
  | nil => simp
  | cons q s ih =>
    have h1 := mul_nonneg (hs q (by simp)) (hf q.1)
    have h2 := total_nonneg hf (s := s) fun p hp => hs p (by simp [hp])
    rw [total_cons] at h
    intro p hp
    rcases List.mem_cons.1 hp with rfl | hp
    · linarith
    · exact ih (fun p hp => hs p (by simp [hp])) (by linarith) p hp

/-- The estimate from a sample: its mean. -/
noncomputable def meanOf (s : Sample ℝ) : ℝ := total (fun x => x) s / weight s

/-- The estimate from a sample: its variance. -/
noncomputable def varOf (s : Sample ℝ) : ℝ := total (fun x => (x - meanOf s) * (x - meanOf s)) s / weight s

theorem weight_nonneg {P : Type} {s : Sample P} (hs : ∀ p ∈ s, 0 ≤ p.2) : 0 ≤ weight s := by
  refine List.sum_nonneg fun y hy => ?_
  obtain ⟨p, hp, rfl⟩ := List.mem_map.1 hy
  exact hs p hp

theorem weight_pos {P : Type} {s : Sample P} (hs : ∀ p ∈ s, 0 ≤ p.2) (h : 0 < weight s) : ∃ p ∈ s, 0 < p.2 := by
  induction s with
  | nil => simp [weight] at h
  | cons q s ih =>
    rcases (hs q (by simp)).lt_or_eq with h1 | h1
    · exact ⟨q, by simp, h1⟩
    · rw [weight_cons, ← h1, zero_add] at h
      obtain ⟨p, hp, hp2⟩ := ih (fun p hp => hs p (by simp [hp])) h
      exact ⟨p, by simp [hp], hp2⟩

theorem var_pos {s : Sample ℝ} (hs : ∀ p ∈ s, 0 ≤ p.2) (hw : 0 < weight s) : 0 < varOf s ↔ Spread s := by
  have hq : ∀ a x : ℝ, 0 ≤ (x - a) * (x - a) := fun a x => mul_self_nonneg _
  constructor
  · intro h
    by_contra hn
    obtain ⟨q, hq1, hq2⟩ := weight_pos hs hw
    have hall : ∀ p ∈ s, 0 < p.2 → p.1 = q.1 := by
      intro p hp hp2
      by_contra hne
      exact hn ⟨p, hp, q, hq1, hp2, hq2, hne⟩
    have h1 : ∀ f : ℝ → ℝ, total f s = f q.1 * weight s := by
      intro f
      clear h hw hq1 hn
      induction s with
      | nil => simp [total, weight]
      | cons p s ih =>
        rw [total_cons, weight_cons, ih (fun p hp => hs p (by simp [hp])) fun p hp => hall p (by simp [hp])]
        rcases (hs p (by simp)).lt_or_eq with hp | hp
        · rw [hall p (by simp) hp]
          ring
        · rw [← hp]
          ring
    have h2 : meanOf s = q.1 := by
      unfold meanOf
      rw [h1]
      field_simp
    unfold varOf at h
    rw [h1, h2] at h
    simp at h
  · rintro ⟨p, hp, q, hq', hp2, hq2, hne⟩
    have h1 := total_nonneg (hq (meanOf s)) hs
    rcases h1.lt_or_eq with h2 | h2
    · exact div_pos h2 hw
    · have h3 := total_zero (hq (meanOf s)) hs h2.symm
      have h4 : ∀ r ∈ s, 0 < r.2 → r.1 = meanOf s := by
        intro r hr hr2
        rcases mul_eq_zero.1 (h3 r hr) with h | h
        · exact absurd h hr2.ne'
        · have := mul_self_eq_zero.1 h
          linarith
      exact absurd ((h4 p hp hp2).trans (h4 q hq' hq2).symm) hne

theorem logLik_eq {m v : ℝ} (hv : 0 < v) {s : Sample ℝ} (hw : 0 < weight s) :
    logLik (density m v) s = -(weight s / 2) * ((varOf s + (meanOf s - m) ^ 2) / v + Real.log (2 * Real.pi * v)) := by
  have h1 : logLik (density m v) s = total (fun x => -((x - m) ^ 2 / (2 * v)) - 1 / 2 * Real.log (2 * Real.pi * v)) s := by
    unfold logLik total
    simp only [log_density hv]
  have h2 := total_lin (-(1 / (2 * v))) (m / v) (-(m ^ 2 / (2 * v)) - 1 / 2 * Real.log (2 * Real.pi * v)) s
  rw [h1, show (fun x : ℝ => -((x - m) ^ 2 / (2 * v)) - 1 / 2 * Real.log (2 * Real.pi * v)) = fun x =>
    -(1 / (2 * v)) * x ^ 2 + m / v * x + (-(m ^ 2 / (2 * v)) - 1 / 2 * Real.log (2 * Real.pi * v)) by
      funext x; field_simp; ring, h2]
  have h3 : total (fun x => x) s = weight s * meanOf s := by
    unfold meanOf
    field_simp
  have h4 : total (fun x => x ^ 2) s = weight s * (varOf s + meanOf s ^ 2) := by
    have := total_quad (meanOf s) s
    have h5 : total (fun x => (x - meanOf s) * (x - meanOf s)) s = weight s * varOf s := by
      unfold varOf
      field_simp
    rw [h5, h3] at this
    linarith
  rw [h3, h4]
  field_simp
  ring

theorem best {s : Sample ℝ} (hw : 0 < weight s) (hp : 0 < varOf s) {m v : ℝ} (hv : 0 < v) :
    logLik (density m v) s ≤ logLik (density (meanOf s) (varOf s)) s ∧
    (logLik (density m v) s = logLik (density (meanOf s) (varOf s)) s → m = meanOf s ∧ v = varOf s) := by
  rw [logLik_eq hv hw, logLik_eq hp hw]
  have hl : Real.log (2 * Real.pi * v) = Real.log (2 * Real.pi) + Real.log v := Real.log_mul (by positivity) hv.ne'
  have hl2 : Real.log (2 * Real.pi * varOf s) = Real.log (2 * Real.pi) + Real.log (varOf s) := Real.log_mul (by positivity) hp.ne'
  have h1 := Real.log_le_sub_one_of_pos (show 0 < varOf s / v by positivity)
  have hd : Real.log (varOf s / v) = Real.log (varOf s) - Real.log v := Real.log_div hp.ne' hv.ne'
  have h2 : 0 ≤ (meanOf s - m) ^ 2 / v := by positivity
  rw [hl, hl2, sub_self, add_div, div_self_of_ne hp.ne']
  constructor
  · nlinarith
  · intro h3
    have h4 : varOf s / v + (meanOf s - m) ^ 2 / v + Real.log v = 1 + Real.log (varOf s) := by
      have : weight s / 2 ≠ 0 := by positivity
      have h5 : -(weight s / 2) ≠ 0 := neg_ne_zero.2 this
      have := mul_left_cancel₀ h5 h3
      linarith
    have h5 : varOf s / v = 1 := by
      by_contra hne
      have := Real.log_lt_sub_one_of_pos (show 0 < varOf s / v by positivity) hne
      linarith
    have h6 : (meanOf s - m) ^ 2 / v = 0 := by
      rw [hd] at h1
      rw [h5] at h4 h1
      have : Real.log (varOf s / v) = 0 := by rw [h5, Real.log_one]
      linarith
    have h7 : (meanOf s - m) ^ 2 = 0 := by
      rcases div_eq_zero_iff.1 h6 with h | h
      · exact h
      · exact absurd h hv.ne'
    refine ⟨?_, ?_⟩
    · have := pow_eq_zero_iff (two_ne_zero) |>.1 h7
      linarith
    · field_simp at h5
      exact h5.symm
where
  div_self_of_ne {x : ℝ} (h : x ≠ 0) : (x + 0 ^ 2) / x = 1 := by simp [h]

/-- What holds of the estimator after a history. -/
structure Est1.After (e : Est1) (l : List ℝ) (s : Option (Sample ℝ)) : Prop where
  num : e.num = l.length
  sum : e.sum = l.sum
  sq : e.sq = (l.map fun x => x ^ 2).sum
  fresh : s = none → e.valid = false
  made : ∀ t, s = some t → 0 < weight t ∧ (∀ p ∈ t, 0 ≤ p.2) ∧ e.dist.mean = meanOf t ∧ (e.valid = true ↔ 0 < varOf t) ∧
    (e.valid = true → e.dist.Is (meanOf t) (varOf t))

theorem total_ones (f : ℝ → ℝ) (l : List ℝ) : total f (l.map fun y => (y, 1)) = (l.map f).sum := by
  simp [total, Function.comp_def]

theorem weight_ones {P : Type} (l : List P) : weight (l.map fun y => (y, (1 : ℝ))) = l.length := by
  simp [weight, Function.comp_def]

theorem store_after {e : Est1} {l : List ℝ} {t : Sample ℝ} (hn : e.num = l.length) (hs : e.sum = l.sum)
    (hq : e.sq = (l.map fun x => x ^ 2).sum) (hw : 0 < weight t) (ht : ∀ p ∈ t, 0 ≤ p.2) :
    (e.store (meanOf t) (varOf t)).After l (some t) := by
  unfold Est1.store
  cases h : (e.dist.setMean (meanOf t)).setVariance (varOf t) with
  | some d =>
    have h1 := setVariance_some h
    refine ⟨hn, hs, hq, by simp, ?_⟩
    intro t' ht'
    cases ht'
    exact ⟨hw, ht, h1.mean, by simpa using h1.pos, fun _ => h1⟩
  | none =>
    refine ⟨hn, hs, hq, by simp, ?_⟩
    intro t' ht'
    cases ht'
    refine ⟨hw, ht, rfl, ?_, by simp⟩
    unfold Normal1.setVariance at h
    by_cases hv : varOf t ≤ 0
    · simpa using hv
    · simp [hv] at h

theorem addPoint_after {e : Est1} {l : List ℝ} {s : Option (Sample ℝ)} (h : e.After l s) (x : ℝ) :
    (e.addPoint x).After (l ++ [x]) (some ((l ++ [x]).map fun y => (y, 1))) := by
  obtain ⟨t, ht⟩ : ∃ t : Sample ℝ, t = (l ++ [x]).map fun y => (y, 1) := ⟨_, rfl⟩
  have hw : weight t = l.length + 1 := by rw [ht, weight_ones]; simp
  have hwp : 0 < weight t := by rw [hw]; positivity
  have hs1 : e.sum + x = total (fun x => x) t := by rw [ht, total_ones, h.sum]; simp
  have hq1 : e.sq + x * x = total (fun x => x ^ 2) t := by rw [ht, total_ones, h.sq]; simp [sq]
  have hm : (e.sum + x) / ((e.num + 1 : ℕ) : ℝ) = meanOf t := by
    unfold meanOf
    rw [hw, hs1, h.num]
    push_cast
    rfl
  have hv : (e.sq + x * x) / ((e.num + 1 : ℕ) : ℝ) - (e.sum + x) * (e.sum + x) * 2 / (((e.num + 1 : ℕ) : ℝ) * ((e.num + 1 : ℕ) : ℝ)) +
      meanOf t * meanOf t = varOf t := by
    have h1 := total_quad (meanOf t) t
    unfold varOf
    rw [h1, hq1, hs1, h.num]
    have h2 : total (fun x => x) t = weight t * meanOf t := by
      unfold meanOf
      field_simp
    rw [h2]
    push_cast
    rw [← hw]
    field_simp
  unfold Est1.addPoint
  dsimp only
  rw [hm, hv, ← ht]
  refine store_after ?_ ?_ ?_ hwp ?_
  · simp [h.num]
  · simp [h.sum]
  · simp [h.sq, sq]
  · rw [ht]
    intro p hp
    obtain ⟨y, _, rfl⟩ := List.mem_map.1 hp
    exact zero_le_one

theorem addPoints_after {e : Est1} {l : List ℝ} {s : Option (Sample ℝ)} (h : e.After l s) (xs : List ℝ) :
    (e.addPoints xs).After (l ++ xs) (if xs = [] then s else some ((l ++ xs).map fun y => (y, 1))) := by
  unfold Est1.addPoints
  induction xs generalizing e l s with
  | nil => simpa using h
  | cons x xs ih =>
    have h1 := ih (addPoint_after h x)
    rw [List.foldl_cons]
    rw [List.append_assoc, List.singleton_append] at h1
    rw [if_neg (by simp)]
    by_cases hx : xs = []
    · subst hx
      simpa using h1
    · rw [if_neg hx] at h1
      exact h1

theorem addWeighted_after {e e' : Est1} {l : List ℝ} {s : Option (Sample ℝ)} (h : e.After l s) (xs rs : List ℝ)
    (hr : ∀ r ∈ rs, (0 : ℝ) ≤ r) (he : e.addWeighted xs rs = .ok e') :
    e'.After l (if xs.length = rs.length then some (xs.zip rs) else s) := by
  unfold Est1.addWeighted at he
  by_cases hl : rs.length ≠ xs.length
  · rw [if_pos hl] at he
    cases he
    rw [if_neg (fun h => hl h.symm)]
    exact h
  · rw [if_neg hl] at he
    rw [not_not] at hl
    by_cases h0 : rs.sum = 0
    · rw [if_pos h0] at he
      cases he
    · rw [if_neg h0] at he
      have hz := zip_weight xs rs hl
      have hn : ∀ p ∈ xs.zip rs, 0 ≤ p.2 := fun p hp => hr _ (List.of_mem_zip hp).2
      have hw : 0 < weight (xs.zip rs) := lt_of_le_of_ne (weight_nonneg hn) (by rw [← hz]; exact Ne.symm h0)
      simp only [Out.ok.injEq] at he
      rw [wsum_total, hz] at he
      rw [wsum_total] at he
      rw [if_pos hl.symm, ← he]
      exact store_after h.num h.sum h.sq hw hn

theorem run_after {e e' : Est1} {l : List ℝ} {s : Option (Sample ℝ)} (h : e.After l s) (ops : List (EOp ℝ)) (ho : Weighed ops)
    (he : e.run ops = .ok e') : e'.After (live l ops) (source l s ops) := by
  induction ops generalizing e l s with
  | nil =>
    cases he
    exact h
  | cons o os ih =>
    have ho' : Weighed os := fun xs rs hm => ho xs rs (by simp [hm])
    cases o with
    | addPoint x => exact ih (addPoint_after h x) ho' he
    | addPoints xs => exact ih (addPoints_after h xs) ho' he
    | addWeighted xs rs =>
      rw [Est1.run, show e.step (.addWeighted xs rs) = e.addWeighted xs rs from rfl] at he
      cases h1 : e.addWeighted xs rs with
      | ok e1 =>
        rw [h1] at he
        exact ih (addWeighted_after h xs rs (ho xs rs (by simp)) h1) ho' he
      | raise => rw [h1] at he; cases he
      | ub => rw [h1] at he; cases he
    | reset =>
      refine ih (e := e.reset) (l := []) (s := none) ?_ ho' he
      exact ⟨rfl, rfl, rfl, fun _ => rfl, by simp⟩

/-- **C147** After any history of calls, with weights that are not negative, the number of points is the number added since the
last reset.  The estimator is valid exactly when the sample of the last estimate has two different points; then it holds
the normal distribution that makes this sample most likely, and no other one does. -/
theorem C147_most_likely (ops : List (EOp ℝ)) (ho : Weighed ops) (e : Est1) (he : Est1.new.run ops = .ok e) :
    e.num = (live [] ops).length ∧
    (e.valid = true ↔ ∃ s, source [] none ops = some s ∧ Spread s) ∧
    (e.valid = true → ∀ s, source [] none ops = some s →
      0 < e.dist.variance ∧ (∀ x, e.dist.pdf x = density e.dist.mean e.dist.variance x) ∧
      ∀ m v, 0 < v → logLik (density m v) s ≤ logLik e.dist.pdf s ∧
        (logLik (density m v) s = logLik e.dist.pdf s → m = e.dist.mean ∧ v = e.dist.variance)) := by
  have h : Est1.new.After [] none := ⟨rfl, rfl, rfl, fun _ => rfl, by simp⟩
  have h1 := run_after h ops ho he
  refine ⟨h1.num, ?_, ?_⟩
  · cases hs : source [] none ops with
    | none =>
      have := h1.fresh hs
      simp [this]
    | some s =>
      obtain ⟨hw, hn, _, hv, _⟩ := h1.made s hs
      rw [hv, var_pos hn hw]
      simp
  · intro hval s hs
    obtain ⟨hw, hn, _, hv, hd⟩ := h1.made s hs
    have hd := hd hval
    have hpdf : e.dist.pdf = density (meanOf s) (varOf s) := funext fun x => pdf_density hd x
    rw [hpdf, hd.mean, hd.variance]
    exact ⟨hd.pos, fun x => rfl, fun m v hv' => best hw hd.pos hv'⟩

/-- **C147** The way the points are grouped does not matter: adding a list is adding
its points one by one, and a reset makes the estimator what it was at the start but for the distribution. -/
theorem C147_grouping (e : Est1) (xs ys : List ℝ) :
    (e.addPoints xs).addPoints ys = e.addPoints (xs ++ ys) ∧
    (∀ ops e1 e2, e.reset.run ops = .ok e1 → Est1.new.run ops = .ok e2 → Weighed ops → e1.num = e2.num ∧ e1.valid = e2.valid ∧
      (e1.valid = true → e1.dist = e2.dist)) := by
  refine ⟨by simp [Est1.addPoints], ?_⟩
  intro ops e1 e2 h1 h2 ho
  have a1 := run_after (e := e.reset) (l := []) (s := none) ⟨rfl, rfl, rfl, fun _ => rfl, by simp⟩ ops ho h1
  have a2 := run_after (e := Est1.new) (l := []) (s := none) ⟨rfl, rfl, rfl, fun _ => rfl, by simp⟩ ops ho h2
  refine ⟨a1.num.trans a2.num.symm, ?_⟩
  cases hs : source [] none ops with
  | none =>
    have h3 := a1.fresh hs
    rw [h3, a2.fresh hs]
    simp
  | some s =>
    obtain ⟨_, _, _, v1, d1⟩ := a1.made s hs
    obtain ⟨_, _, _, v2, d2⟩ := a2.made s hs
    have hv : e1.valid = e2.valid := by
      rw [Bool.eq_iff_iff, v1, v2]
    refine ⟨hv, fun hval => ?_⟩
    have i1 := d1 hval
    have i2 := d2 (hv ▸ hval)
    cases hx : e1.dist
    cases hy : e2.dist
    rw [hx] at i1
    rw [hy] at i2
    simp only [Normal1.mk.injEq]
    exact ⟨i1.mean.trans i2.mean.symm, i1.variance.trans i2.variance.symm, i1.precision.trans i2.precision.symm,
      i1.std.trans i2.std.symm, i1.normalizer.trans i2.normalizer.symm⟩

/-- **C147** Weights whose sum is zero are not refused: the estimate is the result of a division by zero. -/
theorem C147_zero_weights_counterexample (x : ℝ) : Est1.new.run [.addWeighted [x] [0]] = .ub := by
  simp [Est1.run, Est1.step, Est1.addWeighted, Out.bind]

/-- Two different points after a reset make the estimator valid. -/
example : ∃ e, Est1.new.run [.addPoint 7, .reset, .addPoints [1, 3], .addWeighted [1, 2] [1]] = .ok e ∧ e.valid = true := by
  have hw : Weighed [EOp.addPoint (7 : ℝ), .reset, .addPoints [1, 3], .addWeighted [1, 2] [1]] := by
    intro xs rs h
    simp at h
    obtain ⟨rfl, rfl⟩ := h
    simp
  have he : Est1.new.run [.addPoint 7, .reset, .addPoints [1, 3], .addWeighted [1, 2] [1]] =
      .ok ((Est1.new.addPoint 7).reset.addPoints [1, 3]) := by
    simp [Est1.run, Est1.step, Est1.addWeighted, Out.bind]
  refine ⟨_, he, ?_⟩
  rw [(C147_most_likely _ hw _ he).2.1]
  refine ⟨[(1, 1), (3, 1)], by simp [source], (1, 1), by simp, (3, 1), by simp, by norm_num, by norm_num, by norm_num⟩

end Kalibr.Stats
