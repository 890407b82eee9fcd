import Verif.Stats.Multi

/-!
# The maximum likelihood estimator of the normal distribution of a vector
-/

namespace Kalibr.Stats

open Matrix

variable {n : ℕ}

/-- A sum over a sample of vectors. -/
noncomputable def totalM {β : Type} [AddCommMonoid β] [SMul ℝ β] (f : (Fin n → ℝ) → β) (s : Sample (Fin n → ℝ)) : β :=
  (s.map fun p => p.2 • f p.1).sum

theorem totalM_cons {β : Type} [AddCommMonoid β] [SMul ℝ β] (f : (Fin n → ℝ) → β) (p : (Fin n → ℝ) × ℝ) (s : Sample (Fin n → ℝ)) :
    totalM f (p :: s) = p.2 • f p.1 + totalM f s := by simp [totalM]

theorem wsumM_total {β : Type} [AddCommMonoid β] [SMul ℝ β] (f : (Fin n → ℝ) → β) (xs : List (Fin n → ℝ)) (rs : List ℝ) :
    wsumM f xs rs = totalM f (xs.zip rs) := by
  induction xs generalizing rs with
  | nil => simp [wsumM, totalM]
  | cons x xs ih =>
    cases rs with
    | nil => simp [wsumM, totalM]
    | cons r rs => rw [List.zip_cons_cons, totalM_cons, wsumM, ih]

/-- The mean of a sample. -/
noncomputable def meanM (s : Sample (Fin n → ℝ)) : Fin n → ℝ := (weight s)⁻¹ • totalM (fun x => x) s

/-- The moments about a point. -/
noncomputable def about (m : Fin n → ℝ) (s : Sample (Fin n → ℝ)) : Matrix (Fin n) (Fin n) ℝ :=
  totalM (fun x => vecMulVec (x - m) (x - m)) s

/-- The covariance of a sample. -/
noncomputable def covM (s : Sample (Fin n → ℝ)) : Matrix (Fin n) (Fin n) ℝ := (weight s)⁻¹ • about (meanM s) s

theorem about_eq (m : Fin n → ℝ) (s : Sample (Fin n → ℝ)) :
    about m s = totalM (fun x => vecMulVec x x) s - vecMulVec (totalM (fun x => x) s) m - vecMulVec m (totalM (fun x => x) s) +
      weight s • vecMulVec m m := by
  induction s with
  | nil =>
    ext i j
    simp [about, totalM, weight, vecMulVec]
  | cons p s ih =>
    unfold about at *
    rw [totalM_cons, totalM_cons, totalM_cons, weight_cons, ih]
    ext i j
    simp [vecMulVec_apply]
    ring

theorem mean_total {s : Sample (Fin n → ℝ)} (hw : 0 < weight s) : totalM (fun x => x) s = weight s • meanM s := by
  unfold meanM
  rw [smul_smul, mul_inv_cancel₀ hw.ne', one_smul]

theorem about_mean {s : Sample (Fin n → ℝ)} (hw : 0 < weight s) (m : Fin n → ℝ) :
    about m s = weight s • (covM s + vecMulVec (meanM s - m) (meanM s - m)) := by
  have h1 : about (meanM s) s = weight s • covM s := by
    unfold covM
    rw [smul_smul, mul_inv_cancel₀ hw.ne', one_smul]
  rw [smul_add, ← h1, about_eq, about_eq, mean_total hw]
  ext i j
  simp [vecMulVec_apply]
  ring

/-- A quadratic form of the moments. -/
theorem trace_about (P : Matrix (Fin n) (Fin n) ℝ) (m : Fin n → ℝ) (s : Sample (Fin n → ℝ)) :
    (P * about m s).trace = (s.map fun p => p.2 * ((p.1 - m) ⬝ᵥ P *ᵥ (p.1 - m))).sum := by
  induction s with
  | nil => simp [about, totalM]
  | cons p s ih =>
    unfold about at *
    rw [totalM_cons, Matrix.mul_add, trace_add, ih, List.map_cons, List.sum_cons, Matrix.mul_smul, trace_smul, smul_eq_mul]
    congr 2
    rw [mul_vecMulVec, trace_vecMulVec, dotProduct_comm]

theorem form_about (w : Fin n → ℝ) (m : Fin n → ℝ) (s : Sample (Fin n → ℝ)) :
    w ⬝ᵥ about m s *ᵥ w = (s.map fun p => p.2 * (w ⬝ᵥ (p.1 - m)) ^ 2).sum := by
  induction s with
  | nil => simp [about, totalM]
  | cons p s ih =>
    unfold about at *
    rw [totalM_cons, Matrix.add_mulVec, dotProduct_add, ih, List.map_cons, List.sum_cons, Matrix.smul_mulVec, dotProduct_smul,
      smul_eq_mul]
    congr 2
    rw [vecMulVec_mulVec]
    simp [dotProduct_comm, sq]

theorem cov_psd {s : Sample (Fin n → ℝ)} (hs : ∀ p ∈ s, 0 ≤ p.2) : (covM s).PosSemidef := by
  refine Matrix.PosSemidef.of_dotProduct_mulVec_nonneg ?_ ?_
  · have : ∀ s : Sample (Fin n → ℝ), ∀ m, (about m s)ᵀ = about m s := by
      intro s m
      induction s with
      | nil => simp [about, totalM]
      | cons p s ih =>
        unfold about at *
        rw [totalM_cons, transpose_add, ih, transpose_smul, transpose_vecMulVec]
    rw [IsHermitian, conjTranspose_eq_transpose_of_trivial]
    unfold covM
    rw [transpose_smul, this]
  · intro w
    rw [star_trivial]
    unfold covM
    rw [Matrix.smul_mulVec, dotProduct_smul, form_about, smul_eq_mul]
    refine mul_nonneg (inv_nonneg.2 (weight_nonneg hs)) (List.sum_nonneg fun y hy => ?_)
    obtain ⟨p, hp, rfl⟩ := List.mem_map.1 hy
    exact mul_nonneg (hs p hp) (sq_nonneg _)

/-- In every direction two points of the sample that count differ. -/
def SpreadM (s : Sample (Fin n → ℝ)) : Prop :=
  ∀ w : Fin n → ℝ, w ≠ 0 → ∃ p ∈ s, ∃ q ∈ s, 0 < p.2 ∧ 0 < q.2 ∧ w ⬝ᵥ p.1 ≠ w ⬝ᵥ q.1

theorem sum_zero {α : Type} (f : α → ℝ) (s : List α) (h : ∀ p ∈ s, 0 ≤ f p) (h0 : (s.map f).sum = 0) : ∀ p ∈ s, f p = 0 := by
  induction s with
  | nil => intro p hp; simp at hp
  | cons a s ih =>
    rw [List.map_cons, List.sum_cons] at h0
    have h1 := h a (by simp)
    have h2 : 0 ≤ (s.map f).sum := by
      refine List.sum_nonneg fun y hy => ?_
      obtain ⟨p, hp, rfl⟩ := List.mem_map.1 hy
      exact h p (by simp [hp])
    intro p hp
    rcases List.mem_cons.1 hp with rfl | hp
    · linarith
    · exact ih (fun q hq => h q (by simp [hq])) (by linarith) p hp

theorem cov_pd {s : Sample (Fin n → ℝ)} (hs : ∀ p ∈ s, 0 ≤ p.2) (hw : 0 < weight s) (h : SpreadM s) : (covM s).PosDef := by
  refine Matrix.PosDef.of_dotProduct_mulVec_pos (cov_psd hs).isHermitian ?_
  intro w hw0
  rw [star_trivial]
  have h1 := (cov_psd hs).dotProduct_mulVec_nonneg w
  rw [star_trivial] at h1
  rcases h1.lt_or_eq with h2 | h2
  · exact h2
  · exfalso
    unfold covM at h2
    rw [Matrix.smul_mulVec, dotProduct_smul, form_about, smul_eq_mul] at h2
    have h3 : (s.map fun p => p.2 * (w ⬝ᵥ (p.1 - meanM s)) ^ 2).sum = 0 := by
      rcases mul_eq_zero.1 h2.symm with h | h
      · exact absurd h (inv_ne_zero hw.ne')
      · exact h
    have h4 : ∀ p ∈ s, p.2 * (w ⬝ᵥ (p.1 - meanM s)) ^ 2 = 0 := by
      exact sum_zero _ s (fun q hq => mul_nonneg (hs q hq) (sq_nonneg _)) h3
    have h5 : ∀ p ∈ s, 0 < p.2 → w ⬝ᵥ p.1 = w ⬝ᵥ meanM s := by
      intro p hp hp2
      rcases mul_eq_zero.1 (h4 p hp) with h | h
      · exact absurd h hp2.ne'
      · have := pow_eq_zero_iff (two_ne_zero) |>.1 h
        rw [dotProduct_sub] at this
        linarith
    obtain ⟨p, hp, q, hq, hp2, hq2, hne⟩ := h w hw0
    exact hne ((h5 p hp hp2).trans (h5 q hq hq2).symm)

theorem log_densityM {m : Fin n → ℝ} {S : Matrix (Fin n) (Fin n) ℝ} (hS : S.PosDef) (x : Fin n → ℝ) :
    Real.log (densityM m S x) = -(1 / 2) * ((x - m) ⬝ᵥ S⁻¹ *ᵥ (x - m)) - 1 / 2 * (n * Real.log (2 * Real.pi) + Real.log S.det) := by
  have hdet := hS.det_pos
  have h1 : (0 : ℝ) < (2 * Real.pi) ^ n * S.det := by positivity
  unfold densityM
  rw [Real.log_mul (by positivity) (Real.exp_ne_zero _), Real.log_exp, Real.log_inv, Real.log_sqrt h1.le,
    Real.log_mul (by positivity) hdet.ne', Real.log_pow]
  ring

theorem logLikM_eq {m : Fin n → ℝ} {S : Matrix (Fin n) (Fin n) ℝ} (hS : S.PosDef) {s : Sample (Fin n → ℝ)} (hw : 0 < weight s) :
    logLik (densityM m S) s = -(weight s / 2) * ((S⁻¹ * covM s).trace + (meanM s - m) ⬝ᵥ S⁻¹ *ᵥ (meanM s - m) +
      (n * Real.log (2 * Real.pi) + Real.log S.det)) := by
  have h1 : ∀ c : ℝ, logLik (densityM m S) s = -(1 / 2) * (S⁻¹ * about m s).trace -
      weight s * (1 / 2 * (n * Real.log (2 * Real.pi) + Real.log S.det)) := by
    intro _
    rw [trace_about]
    unfold logLik
    simp only [log_densityM hS]
    clear hw
    induction s with
    | nil => simp [weight]
    | cons p s ih =>
      simp only [List.map_cons, List.sum_cons, weight_cons]
      rw [ih]
      ring
  rw [h1 0, about_mean hw, Matrix.mul_smul, trace_smul, Matrix.mul_add, trace_add, mul_vecMulVec, trace_vecMulVec, dotProduct_comm,
    smul_eq_mul]
  ring

theorem bestM {s : Sample (Fin n → ℝ)} (hw : 0 < weight s) (hC : (covM s).PosDef) {m : Fin n → ℝ} {S : Matrix (Fin n) (Fin n) ℝ}
    (hS : S.PosDef) :
    logLik (densityM m S) s ≤ logLik (densityM (meanM s) (covM s)) s ∧
    (logLik (densityM m S) s = logLik (densityM (meanM s) (covM s)) s → m = meanM s ∧ S = covM s) := by
  have p := hC.det_pos
  have p' := hS.det_pos
  rw [logLikM_eq hS hw, logLikM_eq hC hw, sub_self, mulVec_zero, dotProduct_zero, nonsing_inv_mul _ (isUnit_iff_ne_zero.2 p.ne')]
  have hdi : S⁻¹.det = S.det⁻¹ := by rw [det_nonsing_inv, Ring.inverse_eq_inv']
  obtain ⟨h1, h2⟩ := logdet_mul hS.inv hC
  rw [hdi, Real.log_mul (inv_ne_zero p'.ne') p.ne', Real.log_inv] at h1 h2
  have hq : 0 ≤ (meanM s - m) ⬝ᵥ S⁻¹ *ᵥ (meanM s - m) := by
    have := hS.inv.posSemidef.dotProduct_mulVec_nonneg (meanM s - m)
    rwa [star_trivial] at this
  have htr : (1 : Matrix (Fin n) (Fin n) ℝ).trace = n := by simp
  rw [htr]
  constructor
  · nlinarith
  · intro h3
    have h5 : -(weight s / 2) ≠ 0 := neg_ne_zero.2 (by positivity)
    have h6 := mul_left_cancel₀ h5 h3
    have h7 := h2 (by linarith)
    have h8 : (meanM s - m) ⬝ᵥ S⁻¹ *ᵥ (meanM s - m) = 0 := by
      have : (S⁻¹ * covM s).trace = n := by rw [h7, htr]
      linarith
    refine ⟨?_, ?_⟩
    · by_contra hne
      have := hS.inv.dotProduct_mulVec_pos (sub_ne_zero.2 (Ne.symm hne))
      rw [star_trivial] at this
      linarith
    · have h9 : S * (S⁻¹ * covM s) = S * 1 := by rw [h7]
      rw [← Matrix.mul_assoc, mul_nonsing_inv _ (isUnit_iff_ne_zero.2 p'.ne'), Matrix.one_mul, Matrix.mul_one] at h9
      exact h9.symm

/-- What holds of the estimator after a history. -/
structure EstM.After (E : Eig n) (e : EstM n) (l : List (Fin n → ℝ)) (s : Option (Sample (Fin n → ℝ))) : Prop where
  num : e.num = l.length
  sum : e.num ≠ 0 → e.sum = l.sum
  sq : e.num ≠ 0 → e.sq = (l.map fun x => vecMulVec x x).sum
  fresh : s = none → e.valid = false
  made : ∀ t, s = some t → 0 < weight t ∧ (∀ p ∈ t, 0 ≤ p.2) ∧ e.dist.mean = meanM t ∧ e.dist.cov = covM t ∧ e.valid = true ∧
    ((covM t).PosDef → e.dist.Is (meanM t) (covM t))

theorem totalM_ones {β : Type} [AddCommMonoid β] [Module ℝ β] (f : (Fin n → ℝ) → β) (l : List (Fin n → ℝ)) :
    totalM f (l.map fun y => (y, 1)) = (l.map f).sum := by
  simp [totalM, Function.comp_def]

theorem storeM_after {E : Eig n} (hE : E.Right) {e : EstM n} {l : List (Fin n → ℝ)} {t : Sample (Fin n → ℝ)} (hn : e.num = l.length)
    (hs : e.num ≠ 0 → e.sum = l.sum) (hq : e.num ≠ 0 → e.sq = (l.map fun x => vecMulVec x x).sum) (hw : 0 < weight t)
    (ht : ∀ p ∈ t, 0 ≤ p.2) : (e.store E (meanM t) (covM t)).After E l (some t) := by
  obtain ⟨h1, h2, h3, h4⟩ := set_ok hE (e.dist.setMean (meanM t)) (covM t)
  unfold EstM.store
  refine ⟨hn, hs, hq, by simp, ?_⟩
  intro t' ht'
  cases ht'
  exact ⟨hw, ht, h2, h3 (cov_psd ht), h1.2 (cov_psd ht), h4⟩

theorem addPointM_after {E : Eig n} (hE : E.Right) {e : EstM n} {l : List (Fin n → ℝ)} {s : Option (Sample (Fin n → ℝ))}
    (h : e.After E l s) (x : Fin n → ℝ) :
    (e.addPoint E x).After E (l ++ [x]) (some ((l ++ [x]).map fun y => (y, 1))) := by
  obtain ⟨t, ht⟩ : ∃ t : Sample (Fin n → ℝ), t = (l ++ [x]).map fun y => (y, 1) := ⟨_, rfl⟩
  have hw : weight t = ((e.num + 1 : ℕ) : ℝ) := by rw [ht, weight_ones, h.num]; simp
  have hwp : 0 < weight t := by rw [hw]; positivity
  have hs0 : (if e.num = 0 then 0 else e.sum) = l.sum := by
    by_cases h0 : e.num = 0
    · rw [if_pos h0]
      have : l = [] := List.eq_nil_of_length_eq_zero (h.num ▸ h0)
      simp [this]
    · rw [if_neg h0, h.sum h0]
  have hq0 : (if e.num = 0 then 0 else e.sq) = (l.map fun x => vecMulVec x x).sum := by
    by_cases h0 : e.num = 0
    · rw [if_pos h0]
      have : l = [] := List.eq_nil_of_length_eq_zero (h.num ▸ h0)
      simp [this]
    · rw [if_neg h0, h.sq h0]
  have hs1 : l.sum + x = totalM (fun x => x) t := by rw [ht, totalM_ones]; simp
  have hq1 : (l.map fun x => vecMulVec x x).sum + vecMulVec x x = totalM (fun x => vecMulVec x x) t := by
    rw [ht, totalM_ones]; simp
  have hm : (weight t)⁻¹ • totalM (fun x => x) t = meanM t := rfl
  have hv : (weight t)⁻¹ • totalM (fun x => vecMulVec x x) t -
      (weight t * weight t)⁻¹ • ((2 : ℝ) • vecMulVec (totalM (fun x => x) t) (totalM (fun x => x) t)) + vecMulVec (meanM t) (meanM t) = covM t := by
    unfold covM
    rw [about_eq, mean_total hwp]
    ext i j
    simp [vecMulVec_apply]
    field_simp
    ring
  unfold EstM.addPoint
  dsimp only
  rw [hs0, hq0, hs1, hq1, ← hw, hm, hv, ← ht]
  refine storeM_after hE ?_ ?_ ?_ hwp ?_
  · simp [h.num]
  · intro _
    dsimp only
    rw [← hs1]
    simp
  · intro _
    dsimp only
    rw [← hq1]
    simp
  · rw [ht]
    intro p hp
    obtain ⟨y, _, rfl⟩ := List.mem_map.1 hp
    exact zero_le_one

theorem addPointsM_after {E : Eig n} (hE : E.Right) {e : EstM n} {l : List (Fin n → ℝ)} {s : Option (Sample (Fin n → ℝ))}
    (h : e.After E l s) (xs : List (Fin n → ℝ)) :
    (e.addPoints E xs).After E (l ++ xs) (if xs = [] then s else some ((l ++ xs).map fun y => (y, 1))) := by
  unfold EstM.addPoints
  induction xs generalizing e l s with
  | nil => simpa using h
  | cons x xs ih =>
    have h1 := ih (addPointM_after hE h x)
    rw [List.foldl_cons]
    rw [List.append_assoc, List.singleton_append] at h1
    rw [if_neg (by simp)]
    by_cases hx : xs = []
    · subst hx
      simpa using h1
    · rw [if_neg hx] at h1
      exact h1

theorem addWeightedM_after {E : Eig n} (hE : E.Right) {e e' : EstM n} {l : List (Fin n → ℝ)} {s : Option (Sample (Fin n → ℝ))}
    (h : e.After E l s) (xs : List (Fin n → ℝ)) (rs : List ℝ) (hr : ∀ r ∈ rs, (0 : ℝ) ≤ r) (he : e.addWeighted E xs rs = .ok e') :
    e'.After E l (if xs.length = rs.length then some (xs.zip rs) else s) := by
  unfold EstM.addWeighted at he
  by_cases hl : rs.length ≠ xs.length
  · rw [if_pos hl] at he
    cases he
    rw [if_neg (fun h => hl h.symm)]
    exact h
  · rw [if_neg hl] at he
    rw [not_not] at hl
    by_cases hx : xs = []
    · rw [if_pos hx] at he
      cases he
    rw [if_neg hx] at he
    by_cases h0 : rs.sum = 0
    · rw [if_pos h0] at he
      cases he
    · rw [if_neg h0] at he
      have hz := zip_weight xs rs hl
      have hn : ∀ p ∈ xs.zip rs, 0 ≤ p.2 := fun p hp => hr _ (List.of_mem_zip hp).2
      have hw : 0 < weight (xs.zip rs) := lt_of_le_of_ne (weight_nonneg hn) (by rw [← hz]; exact Ne.symm h0)
      simp only [Out.ok.injEq] at he
      rw [wsumM_total, wsumM_total, hz] at he
      rw [if_pos hl.symm, ← he]
      exact storeM_after hE h.num h.sum h.sq hw hn

theorem runM_after {E : Eig n} (hE : E.Right) {e e' : EstM n} {l : List (Fin n → ℝ)} {s : Option (Sample (Fin n → ℝ))}
    (h : e.After E l s) (ops : List (EOp (Fin n → ℝ))) (ho : Weighed ops) (he : e.run E ops = .ok e') :
    e'.After E (live l ops) (source l s ops) := by
  induction ops generalizing e l s with
  | nil =>
    cases he
    exact h
  | cons o os ih =>
    have ho' : Weighed os := fun xs rs hm => ho xs rs (by simp [hm])
    cases o with
    | addPoint x => exact ih (addPointM_after hE h x) ho' he
    | addPoints xs => exact ih (addPointsM_after hE h xs) ho' he
    | addWeighted xs rs =>
      rw [EstM.run, show e.step E (.addWeighted xs rs) = e.addWeighted E xs rs from rfl] at he
      cases h1 : e.addWeighted E xs rs with
      | ok e1 =>
        rw [h1] at he
        exact ih (addWeightedM_after hE h xs rs (ho xs rs (by simp)) h1) ho' he
      | raise => rw [h1] at he; cases he
      | ub => rw [h1] at he; cases he
    | reset =>
      refine ih (e := e.reset) (l := []) (s := none) ?_ ho' he
      exact ⟨rfl, fun h => absurd rfl h, fun h => absurd rfl h, fun _ => rfl, by simp⟩

/-- **C147** The same for vectors: after any history from a new or a reset estimator the number of points is the number added since the
last reset, and when the points of the last estimate differ in every direction the estimator is valid and holds the normal
distribution that makes them most likely, and no other one does.  Missing for the whole claim: that the estimator is not valid when
they do not. -/
theorem C147_vector_partial {E : Eig n} (hE : E.Right) (e0 : EstM n) (h0 : e0.num = 0) (hv : e0.valid = false)
    (ops : List (EOp (Fin n → ℝ))) (ho : Weighed ops) (e : EstM n) (he : e0.run E ops = .ok e) :
    e.num = (live [] ops).length ∧
    (e.valid = true ↔ ∃ s, source [] none ops = some s) ∧
    (∀ s, source [] none ops = some s → SpreadM s →
      e.dist.cov.PosDef ∧ (∀ x, e.dist.pdf x = densityM e.dist.mean e.dist.cov x) ∧
      ∀ m S, S.PosDef → logLik (densityM m S) s ≤ logLik e.dist.pdf s ∧
        (logLik (densityM m S) s = logLik e.dist.pdf s → m = e.dist.mean ∧ S = e.dist.cov)) := by
  have h : e0.After E [] none := ⟨h0, fun h => absurd h0 h, fun h => absurd h0 h, fun _ => hv, by simp⟩
  have h1 := runM_after hE h ops ho he
  refine ⟨h1.num, ?_, ?_⟩
  · cases hs : source [] none ops with
    | none =>
      have := h1.fresh hs
      simp [this]
    | some s =>
      obtain ⟨_, _, _, _, hv, _⟩ := h1.made s hs
      simp [hv]
  · intro s hs hsp
    obtain ⟨hw, hn, hm, hc, _, hd⟩ := h1.made s hs
    have hC := cov_pd hn hw hsp
    have hd := hd hC
    have hpdf : e.dist.pdf = densityM (meanM s) (covM s) := funext fun x => pdf_densityM hd x
    rw [hpdf, hd.mean, hd.cov]
    exact ⟨hC, fun x => rfl, fun m S hS => bestM hw hC hS⟩

/-- **C147** One vector makes the estimator valid, with the covariance zero: no normal distribution makes it most likely. -/
theorem C147_vector_counterexample {E : Eig n} (hE : E.Right) (hn : 0 < n) (e0 : EstM n) (h0 : e0.num = 0) (hv : e0.valid = false)
    (x : Fin n → ℝ) :
    (e0.addPoint E x).valid = true ∧ (e0.addPoint E x).dist.cov = 0 ∧ ¬ (e0.addPoint E x).dist.cov.PosDef := by
  have h : e0.After E [] none := ⟨h0, fun h => absurd h0 h, fun h => absurd h0 h, fun _ => hv, by simp⟩
  obtain ⟨_, _, _, h2, h3, _⟩ := (addPointM_after hE h x).made _ rfl
  have hc : covM (([] ++ [x]).map fun y : Fin n → ℝ => (y, (1 : ℝ))) = 0 := by
    have hm : meanM (([] ++ [x]).map fun y : Fin n → ℝ => (y, (1 : ℝ))) = x := by simp [meanM, totalM, weight]
    unfold covM
    rw [hm]
    simp [about, totalM]
  rw [hc] at h2
  refine ⟨h3, h2, fun hp => ?_⟩
  rw [h2] at hp
  have := hp.diag_pos (i := ⟨0, hn⟩)
  simp at this

/-- Three corners of a square differ in every direction. -/
example : SpreadM [(![0, 0], 1), (![1, 0], 1), ((![0, 1] : Fin 2 → ℝ), 1)] := by
  intro w hw
  have hne : w 0 ≠ 0 ∨ w 1 ≠ 0 := by
    by_contra hn
    push Not at hn
    exact hw (funext fun i => by fin_cases i <;> simp [hn.1, hn.2])
  rcases hne with h | h
  · exact ⟨(![1, 0], 1), by simp, (![0, 0], 1), by simp, by norm_num, by norm_num, by simpa [dotProduct, Fin.sum_univ_succ] using h⟩
  · exact ⟨(![0, 1], 1), by simp, (![0, 0], 1), by simp, by norm_num, by norm_num, by simpa [dotProduct, Fin.sum_univ_succ] using h⟩

end Kalibr.Stats
