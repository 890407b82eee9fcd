import Verif.Fit.Line

/-! C113: `addCurveSegment` appends one segment to a spline. -/

namespace Kalibr.Fit

open BSpline Finset

variable {K : Type} [Field K] [LinearOrder K] [IsStrictOrderedRing K] {D : Nat} {s : Spline K D}

/-! ## The weights at the ends of a segment -/

theorem bw_one (τ : Nat → K) (i c : Nat) (u : K) : bw τ 1 i c u = 1 := by simp [bw, basisM]

/-- The last weight vanishes at the beginning of a segment. -/
theorem bw_last_zero (τ : Nat → K) (k i : Nat) : bw τ (k + 2) i (k + 1) 0 = 0 := by
  induction k with
  | zero =>
    rw [bw_succ _ _ _ _ _ (by omega)]
    simp [omg, d0]
  | succ k ih =>
    rw [bw_succ _ _ _ _ _ (by omega), if_pos (by omega), if_neg (by omega), Nat.add_sub_cancel, ih]
    simp

/-- The last weight is positive at the end of a segment. -/
theorem bw_last_pos (τ : Nat → K) (n k i : Nat) (hs : SortedBelow τ n) (h : τ i < τ (i + 1)) (hn : i + k < n) :
    0 < bw τ (k + 1) i k 1 := by
  induction k with
  | zero => simp [bw_one]
  | succ k ih =>
    rw [bw_succ _ _ _ _ _ (by omega), if_pos (by omega), if_neg (by omega), Nat.add_sub_cancel, add_zero]
    apply mul_pos (ih (by omega))
    rw [show i + 2 + k - (k + 2) = i by omega]
    have h2 := hs (i + 1) (i + (k + 2) - 1) (by omega) (by omega)
    rw [omg_eq τ (k + 2) i i 1 _ (by linarith) rfl]
    apply div_pos <;> linarith

/-- The last but one weight is positive at the beginning of a segment. -/
theorem bw_prev_pos (τ : Nat → K) (n k i : Nat) (hs : SortedBelow τ n) (h : τ i < τ (i + 1)) (hi : 1 ≤ i)
    (hp : 1 ≤ k → τ (i - 1) < τ i) (hn : i + k < n) : 0 < bw τ (k + 2) i k 0 := by
  induction k with
  | zero =>
    rw [bw_succ _ _ _ _ _ (by omega)]
    simp [omg, d0, bw_one]
  | succ k ih =>
    have h1 := hp (by omega)
    rw [bw_succ _ _ _ _ _ (by omega), if_pos (by omega), if_pos (by omega), Nat.add_sub_cancel,
      bw_last_zero, zero_mul, add_zero]
    apply mul_pos (ih (fun _ => h1) (by omega))
    rw [show i + 2 + k - (k + 1 + 2) = i - 1 by omega]
    have h2 := hs (i + 1) (i - 1 + (k + 1 + 2) - 1) (by omega) (by omega)
    rw [omg_eq τ (k + 1 + 2) i (i - 1) 0 _ (by linarith) rfl]
    apply div_pos <;> linarith

/-- The basis matrix only depends on the knots around the segment. -/
theorem basisM_congr {τ τ' : Nat → K} (k i : Nat) (hk : k ≤ i + 1) (h : ∀ x, x < i + k → τ x = τ' x) (h1 : τ (i + 1) = τ' (i + 1)) : ∀ r c, basisM τ k i r c = basisM τ' k i r c := by
  induction k with
  | zero => intros; rfl
  | succ k ih =>
    cases k with
    | zero => intros; rfl
    | succ k =>
      have ih := ih (by omega) (fun x hx => h x (by omega))
      have hd0 : ∀ idx, idx < k + 1 → d0 τ (k + 2) i (i + 2 + idx - (k + 2)) =
          d0 τ' (k + 2) i (i + 2 + idx - (k + 2)) := by
        intro idx hx
        unfold d0
        rw [h _ (by omega), h _ (by omega),
          h i (by omega)]
      have hd1 : ∀ idx, idx < k + 1 → d1 τ (k + 2) i (i + 2 + idx - (k + 2)) =
          d1 τ' (k + 2) i (i + 2 + idx - (k + 2)) := by
        intro idx hx
        unfold d1
        rw [h _ (by omega), h _ (by omega),
          h i (by omega), h1]
      intro r c
      simp only [basisM]
      congr 1
      · apply sum_congr rfl
        intro idx hx
        have hx : idx < k + 1 := by simpa using hx
        unfold matA
        rw [hd0 idx hx, ih]
      · apply sum_congr rfl
        intro idx hx
        have hx : idx < k + 1 := by simpa using hx
        unfold matB
        rw [hd1 idx hx, ih]

/-! ## The new knots -/

theorem extend_length (τ : List K) (m : Nat) (t dt : K) : (extendKnots τ m t dt).length = τ.length + 1 := by
  simp [extendKnots]

theorem extend_at {τ : List K} {m : Nat} {t dt : K} {i : Nat} (h : i < τ.length + 1) :
    knotAt (extendKnots τ m t dt) i =
      if i < m + 2 then knotAt τ i else t + ((i : K) - (m + 2 : Nat)) * dt := knotAt_map _ _ i h

theorem extend_sorted {τ : List K} (hs : SortedBelow (knotAt τ) τ.length) {m : Nat} {t dt : K} (hm : m + 2 ≤ τ.length)
    (hd : 0 ≤ dt) (ht : knotAt τ (m + 1) ≤ t) :
    SortedBelow (knotAt (extendKnots τ m t dt)) (extendKnots τ m t dt).length := by
  intro a b hab hb
  rw [extend_length] at hb
  rw [extend_at (by omega), extend_at hb]
  by_cases h1 : b < m + 2
  · rw [if_pos (by omega), if_pos h1]
    exact hs a b hab (by omega)
  · rw [if_neg h1]
    have hb' : ((m + 2 : Nat) : K) ≤ b := by exact_mod_cast (by omega : m + 2 ≤ b)
    have hbp : 0 ≤ ((b : K) - (m + 2 : Nat)) * dt := mul_nonneg (by linarith) hd
    by_cases h2 : a < m + 2
    · rw [if_pos h2]
      have := hs a (m + 1) (by omega) (by omega)
      linarith
    · rw [if_neg h2]
      have hab' : (a : K) ≤ b := by exact_mod_cast hab
      have : ((a : K) - (m + 2 : Nat)) * dt ≤ ((b : K) - (m + 2 : Nat)) * dt :=
        mul_le_mul_of_nonneg_right (by linarith) hd
      linarith

theorem setLastTwo_get {c : List (Fin D → K)} {x : Nat → K} (hc : 2 ≤ c.length) (j : Nat) (hj : j < c.length)
    (e : Fin D) : (setLastTwo c x).getD j 0 e =
      if j < c.length - 2 then c.getD j 0 e else x ((j - (c.length - 2)) * D + e) := by
  unfold setLastTwo
  by_cases h : j < c.length - 2
  · rw [if_pos h, List.getD_append _ _ _ _ (by simp; omega)]
    simp [List.getD_eq_getElem?_getD, h, hj]
  · rw [if_neg h, List.getD_append_right _ _ _ _ (by simp; omega)]
    have hl : (c.take (c.length - 2)).length = c.length - 2 := by simp
    rw [hl]
    have h2 : j - (c.length - 2) = 0 ∨ j - (c.length - 2) = 1 := by omega
    rcases h2 with h2 | h2 <;> rw [h2] <;> simp

theorem setLastTwo_length {c : List (Fin D → K)} {x : Nat → K} (hc : 2 ≤ c.length) :
    (setLastTwo c x).length = c.length := by
  unfold setLastTwo
  simp
  omega

/-- The block row of one end. -/
theorem extendRow_spec (w : WellFormed s) {t : K} {p : K × Nat} (hp : computeTIndex s t = .ok p)
    {fixed : List K} (rhs : Fin D → K)
    (hf : ∀ j, j < s.order - 2 → ∀ e : Fin D, fixed.getD (j * D + e) 0 = s.coeffs.getD (p.2 + 1 - s.order + j) 0 e)
    (W : Nat → K) (hW : W = weights s.order (basisM (knotAt s.knots) s.order p.2)
      (computeU (knotAt s.knots) s.order (normTime s t p.2) p.2 0)) :
    ∃ R : Row K D, extendRow s (s.order - 2) fixed t rhs = .ok R ∧ R.start = 0 ∧
      HasWeights 2 R (fun j => W (s.order - 2 + j)) ∧
      ∀ e, R.rhs e = rhs e - ∑ j ∈ range (s.order - 2), W j * s.coeffs.getD (p.2 + 1 - s.order + j) 0 e := by
  have hk := w.order_ge
  unfold extendRow phi
  rw [localBi_of w hp]
  simp only [Out.ok_bind, Out.pure_eq]
  rw [← hW]
  refine ⟨_, rfl, rfl, ?_, ?_⟩
  · intro j hj e e'
    simp only
    rw [show (s.order - 2) * D + (j * D + (e' : Nat)) = (s.order - 2 + j) * D + e' by ring,
      Motion.mod_lin e'.2, Motion.div_lin e'.2]
    simp only [Fin.val_inj, show s.order - 2 + j < s.order by omega, and_true]
  · intro e
    simp only
    congr 1
    rw [Motion.sum_range_mul]
    apply sum_congr rfl
    intro j hj
    have hj : j < s.order - 2 := by simpa using hj
    rw [sum_eq_single (e : Nat)]
    · rw [Motion.mod_lin e.2, Motion.div_lin e.2, if_pos ⟨rfl, by omega⟩, hf j hj e]
    · intro e' he' hne
      have he' : e' < D := by simpa using he'
      rw [Motion.mod_lin he', if_neg (fun h => hne h.1), zero_mul]
    · intro h
      exact absurd (mem_range.2 e.2) h

/-- The two equations have one solution, and it gives both points. -/
theorem two_rows {sol : Solvers K} (hx : Exact sol) {R0 R1 : Row K D} {w0 w1 : Nat → K} (h0 : R0.start = 0)
    (h1 : R1.start = 0) (g0 : HasWeights 2 R0 w0) (g1 : HasWeights 2 R1 w1) (a0 : w0 0 ≠ 0) (a1 : w0 1 = 0)
    (a2 : w1 1 ≠ 0) (e : Fin D) :
    w0 0 * sol.qr (2 * D) (denseA 2 [R0, R1]) (denseB [R0, R1]) e = R0.rhs e ∧
    w1 0 * sol.qr (2 * D) (denseA 2 [R0, R1]) (denseB [R0, R1]) e +
      w1 1 * sol.qr (2 * D) (denseA 2 [R0, R1]) (denseB [R0, R1]) (D + e) = R1.rhs e := by
  have rows : ∀ (x : Nat → K) (e : Fin D),
      (∑ m ∈ range (2 * D), denseA 2 [R0, R1] (0 * D + e) m * x m = w0 0 * x e) ∧
      ∑ m ∈ range (2 * D), denseA 2 [R0, R1] (1 * D + e) m * x m = w1 0 * x e + w1 1 * x (D + e) := by
    intro x e
    have b0 := denseA_row (rows := [R0, R1]) (r := 0) (C := 2) rfl h0 g0 (by omega) e x
    have b1 := denseA_row (rows := [R0, R1]) (r := 1) (C := 2) rfl h1 g1 (by omega) e x
    rw [sum_range_succ, sum_range_one] at b0 b1
    rw [a1] at b0
    refine ⟨by rw [b0]; simp, by rw [b1]; simp⟩
  have hns : Nonsingular (2 * D) (denseA 2 [R0, R1]) := by
    intro x hx j hj
    have hz : ∀ e : Fin D, x e = 0 := by
      intro e
      have := hx (0 * D + e) (by have := e.2; omega)
      rw [(rows x e).1] at this
      exact (mul_eq_zero.1 this).resolve_left a0
    obtain ⟨m, hm, e, rfl⟩ := index_split hj
    have hm : m = 0 ∨ m = 1 := by omega
    rcases hm with rfl | rfl
    · simpa using hz e
    · have := hx (1 * D + e) (by have := e.2; omega)
      rw [(rows x e).2, hz e, mul_zero, zero_add] at this
      simpa using (mul_eq_zero.1 this).resolve_left a2
  have hs := hx.qr _ _ (denseB [R0, R1]) hns
  have c0 := hs (0 * D + e) (by have := e.2; omega)
  have c1 := hs (1 * D + e) (by have := e.2; omega)
  rw [(rows _ e).1, denseB_row (rows := [R0, R1]) (r := 0) rfl] at c0
  rw [(rows _ e).2, denseB_row (rows := [R0, R1]) (r := 1) rfl] at c1
  exact ⟨c0, c1⟩

/-- On a proper segment, a time at its beginning is located there. -/
theorem last_index (w : WellFormed s) {t : K} (h : knotAt s.knots (s.knots.length - s.order - 1) ≤ t)
    (ht : t ≤ knotAt s.knots (s.knots.length - s.order)) :
    computeTIndex s t = .ok (knotAt s.knots (s.knots.length - s.order) -
      knotAt s.knots (s.knots.length - s.order - 1), s.knots.length - s.order - 1) := by
  have hk := w.order_ge; have hn := w.enough
  have h0 : knotAt s.knots (s.order - 1) ≤ t :=
    le_trans (w.sorted _ _ (by omega) (by omega)) h
  by_cases hsn : Snapped s t
  · exact computeTIndex_snapped w h0 hsn
  · have ht' : t < knotAt s.knots (s.knots.length - s.order) := by
      rcases lt_or_eq_of_le ht with h1 | h1
      · exact h1
      · exact absurd (h1 ▸ snapped_end) hsn
    obtain ⟨idx, b1, b2, b3, b4, b5⟩ := computeTIndex_mid w h0 ht' hsn
    have : idx = s.knots.length - s.order - 1 := by
      by_contra hne
      have := w.sorted (idx + 1) (s.knots.length - s.order - 1) (by omega) (by omega)
      linarith
    rw [b5, this, show s.knots.length - s.order - 1 + 1 = s.knots.length - s.order by omega]


/-- The value at the end of a spline of order 2 whose last interval is proper is the last coefficient. -/
theorem eval_end_two (w : WellFormed s) (h2 : s.order = 2) {hi : K} (hhi : tMax s = .ok hi)
    (hlast : knotAt s.knots (s.knots.length - s.order - 1) < hi) :
    evalD s hi 0 = .ok (s.coeffs.getD (s.coeffs.length - 1) 0) := by
  have hn := w.enough; have hc := w.count
  rw [w.tMax_eq] at hhi
  have hhi := Out.ok.inj hhi
  have hp := last_index w (t := hi) hlast.le hhi.ge
  rw [evalD_of w hp]
  congr 1
  funext e
  obtain ⟨i, hi1⟩ : ∃ i, i = s.knots.length - s.order - 1 := ⟨_, rfl⟩
  have hseg : knotAt s.knots i < knotAt s.knots (i + 1) := by
    rw [hi1, show s.knots.length - s.order - 1 + 1 = s.knots.length - s.order by omega, hhi]; exact hlast
  have hnt : normTime s hi i = 1 := by
    have h3 : hi - knotAt s.knots i ≠ 0 := by
      rw [hi1]; intro h; linarith
    have := normTime_spec (s := s) (t := hi) hseg
    rw [hi1, show s.knots.length - s.order - 1 + 1 = s.knots.length - s.order by omega, hhi, ← hi1] at this
    apply mul_right_cancel₀ h3
    linear_combination -this
  simp only [← hi1, hnt, weights_eq_bw _ _ _ _ _ hseg]
  rw [h2, sum_range_succ, sum_range_one, bw_succ _ _ _ _ _ (by omega), bw_succ _ _ _ _ _ (by omega)]
  have hom : omg (knotAt s.knots) 2 i i 1 = 1 := by
    have h4 : 0 < knotAt s.knots (i + 2 - 1) - knotAt s.knots i := by
      rw [show i + 2 - 1 = i + 1 by omega]; linarith
    rw [omg_eq _ 2 i i 1 _ h4 rfl, div_eq_one_iff_eq h4.ne', show i + 2 - 1 = i + 1 by omega]
    ring
  simp [hom, bw_one]
  rw [show i - 1 + 1 = s.coeffs.length - 1 by omega]

/-- Two splines that share the knots and the coefficients of a segment have the same values there. -/
theorem eval_same {q : Spline K D} (w : WellFormed s) (w' : WellFormed q) (ho : q.order = s.order) {x : K} {i : Nat}
    {a b : K} (h : computeTIndex s x = .ok (a, i)) (h' : computeTIndex q x = .ok (b, i))
    (hkn : ∀ j, j < i + s.order → knotAt q.knots j = knotAt s.knots j)
    (hco : ∀ j, j ≤ i → q.coeffs.getD j 0 = s.coeffs.getD j 0) (d : Nat) : evalD q x d = evalD s x d := by
  have hk := w.order_ge
  obtain ⟨_, a1, _, _, _⟩ := computeTIndex_ok w h
  simp only at a1
  rw [evalD_of w h, evalD_of w' h']
  congr 1
  funext e
  simp only
  rw [ho]
  apply sum_congr rfl
  intro c hc
  have hc : c < s.order := by simpa using hc
  rw [hco _ (by omega)]
  congr 1
  have hb : basisM (knotAt q.knots) s.order i = basisM (knotAt s.knots) s.order i := by
    funext r c
    exact basisM_congr s.order i (by omega) hkn (hkn _ (by omega)) r c
  have hnt : normTime q x i = normTime s x i := by
    unfold normTime
    rw [hkn i (by omega), hkn (i + 1) (by omega)]
  have hu : computeU (knotAt q.knots) s.order (normTime s x i) i d =
      computeU (knotAt s.knots) s.order (normTime s x i) i d := by
    funext r
    unfold computeU
    rw [hkn i (by omega), hkn (i + 1) (by omega)]
  rw [hb, hnt, hu]

set_option maxHeartbeats 1000000 in
/-- **C113**.  For every spline and every time after its end, `addCurveSegment` with a point appends one segment:
the valid times end at the new time and begin where they began; the curve goes through the new point at the new
end; at the old end it has the value it had; the coefficients other than the last two are the old ones; and on
every segment but the last `order - 2` the curve and its derivatives are what they were (but for the last `1e-10`
before the old end, where the code rounds times to the end).  The last interval of the old spline is assumed to
have positive length, and the linear solver to be exact. -/
theorem C113_extend_partial {sol : Solvers K} (hx : Exact sol) (junk : Fin D → K) (w : WellFormed s) {lo hi t : K}
    (hlo : tMin s = .ok lo) (hhi : tMax s = .ok hi) (ht : hi < t) {L : K × K}
    (hL : timeInterval s (numValidTimeSegments s.order s.knots.length - 1) = .ok L) (hlast : L.1 < L.2)
    (p1 : Fin D → K) :
    ∃ s', addCurveSegment sol junk s t p1 = .ok s' ∧ WellFormed s' ∧ s'.order = s.order ∧
      tMin s' = .ok lo ∧ tMax s' = .ok t ∧
      numValidTimeSegments s'.order s'.knots.length = numValidTimeSegments s.order s.knots.length + 1 ∧
      evalD s' hi 0 = evalD s hi 0 ∧ evalD s' t 0 = .ok p1 ∧
      (∀ j, j + 1 < s.coeffs.length → s'.coeffs[j]? = s.coeffs[j]?) ∧
      ∀ i I, i + s.order < numValidTimeSegments s.order s.knots.length + 2 → timeInterval s i = .ok I →
        ∀ x, I.1 ≤ x → x < I.2 → x ≤ hi - 1 / 10000000000 → ∀ d, evalD s' x d = evalD s x d := by
  have hk := w.order_ge; have hn := w.enough; have hc := w.count
  have hhi' := hhi
  rw [w.tMax_eq] at hhi
  have hhi := Out.ok.inj hhi
  have hNT : numValidTimeSegments s.order s.knots.length = s.knots.length + 1 - 2 * s.order := rfl
  obtain ⟨i, hi1⟩ : ∃ i, i = s.knots.length - s.order := ⟨_, rfl⟩
  have hI : timeInterval s (numValidTimeSegments s.order s.knots.length - 1) = .ok (knotAt s.knots (i - 1), hi) := by
    unfold timeInterval
    rw [minimumKnotsRequired_eq _ (by omega), if_neg (by omega), if_neg (by omega),
      show s.order + (numValidTimeSegments s.order s.knots.length - 1) - 1 = i - 1 by omega,
      show s.order + (numValidTimeSegments s.order s.knots.length - 1) = s.knots.length - s.order by omega, hhi]
  have hLe : L = (knotAt s.knots (i - 1), hi) := by
    rw [hI] at hL; exact (Out.ok.inj hL).symm
  rw [hLe] at hlast
  simp only at hlast
  have hp := last_index w (t := knotAt s.knots (i - 1)) (by rw [hi1]) (by rw [hhi]; exact hlast.le)
  have hp1 := last_index w (t := hi) (by rw [← hi1]; exact hlast.le) hhi.ge
  rw [← hi1] at hp hp1
  obtain ⟨p0, hp0⟩ : ∃ p0, evalD s hi 0 = .ok p0 := by
    rw [evalD_of w hp1]; exact ⟨_, rfl⟩
  obtain ⟨τ', hτ⟩ : ∃ τ', τ' = extendKnots s.knots (i - 1) t (t - hi) := ⟨_, rfl⟩
  have hl' : τ'.length = s.knots.length + 1 := by rw [hτ]; exact extend_length _ _ _ _
  have hs' : SortedBelow (knotAt τ') τ'.length := by
    rw [hτ]
    apply extend_sorted w.sorted (by omega) (by linarith)
    rw [show i - 1 + 1 = s.knots.length - s.order by omega, hhi]; exact ht.le
  obtain ⟨e1, w1⟩ := set_ok (s := s) hk (knots := τ') (coeffs := s.coeffs ++ [junk]) (by omega) (by omega) hs'
    (by simp; omega)
  have hold : ∀ j, j ≤ i → knotAt τ' j = knotAt s.knots j := by
    intro j hj
    rw [hτ, extend_at (by omega), if_pos (by omega)]
  have hnew : knotAt τ' (i + 1) = t := by
    rw [hτ, extend_at (by omega), if_neg (by omega), show i - 1 + 2 = i + 1 by omega]
    simp
  have hati : knotAt τ' i = hi := by rw [hold _ le_rfl, hi1, hhi]
  obtain ⟨q, hq⟩ : ∃ q : Spline K D, q = ⟨s.order, τ', s.coeffs ++ [junk], initBasis s.order τ'⟩ := ⟨_, rfl⟩
  rw [← hq] at e1 w1
  have qo : q.order = s.order := by rw [hq]
  have qk : q.knots = τ' := by rw [hq]
  have qc : q.coeffs = s.coeffs ++ [junk] := by rw [hq]
  have qi : q.knots.length - q.order = i + 1 := by rw [qk, qo]; omega
  have hJ : timeInterval q (numValidTimeSegments s.order s.knots.length) = .ok (hi, t) := by
    unfold timeInterval
    rw [minimumKnotsRequired_eq _ (by omega), qo, qk, if_neg (by omega),
      if_neg (by unfold numValidTimeSegments; omega),
      show s.order + numValidTimeSegments s.order s.knots.length - 1 = i by omega,
      show s.order + numValidTimeSegments s.order s.knots.length = i + 1 by omega, hnew, hati]
  have hA : computeTIndex q hi = .ok (t - hi, i) := by
    have := last_index w1 (t := hi) (by rw [qi, qk, Nat.add_sub_cancel, hati]) (by rw [qi, qk, hnew]; exact ht.le)
    rwa [qi, qk, Nat.add_sub_cancel, hati, hnew] at this
  have hB : computeTIndex q t = .ok (t - hi, i) := by
    have := last_index w1 (t := t) (by rw [qi, qk, Nat.add_sub_cancel, hati]; exact ht.le) (by rw [qi, qk, hnew])
    rwa [qi, qk, Nat.add_sub_cancel, hati, hnew] at this
  have hseg : knotAt τ' i < knotAt τ' (i + 1) := by rw [hati, hnew]; exact ht
  have n0 : normTime q hi i = 0 := by
    unfold normTime
    rw [qk, hati, sub_self, zero_div, ite_self]
  have n1 : normTime q t i = 1 := by
    unfold normTime
    rw [qk, hati, hnew, if_neg (by linarith), div_self (by intro h; linarith)]
  -- the fixed coefficients
  obtain ⟨l1, l2⟩ := localIndex_of w1 hA
  obtain ⟨v1, v2, v3⟩ := window_of l2
  obtain ⟨v, hv⟩ : ∃ v, v = (((q.coeffs.drop (i + 1 - q.order)).take q.order).flatMap List.ofFn) := ⟨_, rfl⟩
  have hfix : localCoefficientVector q hi = .ok v := by
    unfold localCoefficientVector
    rw [l1, Out.ok_bind, v1, hv]
  have hf : ∀ j, j < q.order - 2 → ∀ e : Fin D, (v.take ((q.order - 2) * D)).getD (j * D + e) 0 =
      q.coeffs.getD (i + 1 - q.order + j) 0 e := by
    intro j hj e
    rw [← v3 j (by omega) e, ← hv]
    have : j * D + (e : Nat) < (q.order - 2) * D := by
      have := Nat.mul_le_mul_right D (show j + 1 ≤ q.order - 2 by omega)
      rw [Nat.succ_mul] at this
      have := e.2
      omega
    simp [List.getD_eq_getElem?_getD, List.getElem?_take, this]
  obtain ⟨R0, r0, s0, g0, b0⟩ := extendRow_spec w1 hA p0 hf _ rfl
  obtain ⟨R1, r1, s1, g1, b1⟩ := extendRow_spec w1 hB p1 hf _ rfl
  simp only [n0, n1, qk, qo, weights_eq_bw _ _ _ _ _ hseg] at g0 g1 b0 b1
  obtain ⟨k, hkk⟩ : ∃ k, s.order = k + 2 := ⟨s.order - 2, by omega⟩
  have z0 : 0 < bw (knotAt τ') s.order i (s.order - 2 + 0) 0 := by
    rw [hkk]
    refine bw_prev_pos _ τ'.length k i hs' hseg (by omega) (fun _ => ?_) (by omega)
    rw [hold _ (by omega), hati]; exact hlast
  have z1 : bw (knotAt τ') s.order i (s.order - 2 + 1) 0 = 0 := by
    rw [hkk]; exact bw_last_zero _ k i
  have z2 : 0 < bw (knotAt τ') s.order i (s.order - 2 + 1) 1 := by
    rw [hkk]; exact bw_last_pos _ τ'.length (k + 1) i hs' hseg (by omega)
  have sol2 := two_rows hx s0 s1 g0 g1 z0.ne' z1 z2.ne'
  obtain ⟨x, hxd⟩ : ∃ x, x = sol.qr (2 * D) (denseA 2 [R0, R1]) (denseB [R0, R1]) := ⟨_, rfl⟩
  rw [← hxd] at sol2
  obtain ⟨s', hsd⟩ : ∃ s' : Spline K D, s' = { q with coeffs := setLastTwo q.coeffs x } := ⟨_, rfl⟩
  have qcl : q.coeffs.length = s.coeffs.length + 1 := by rw [qc]; simp
  have so : s'.order = s.order := by rw [hsd]; exact qo
  have sk : s'.knots = τ' := by rw [hsd]; exact qk
  have sc : s'.coeffs = setLastTwo q.coeffs x := by rw [hsd]
  have scl : s'.coeffs.length = s.coeffs.length + 1 := by rw [sc, setLastTwo_length (by omega), qcl]
  have w' : WellFormed s' := ⟨by rw [so]; exact hk, by rw [so, sk]; omega, by rw [so, sk, scl]; omega,
    by rw [so, sk, hsd, hq], by rw [sk]; exact hs'⟩
  have hA' : computeTIndex s' hi = .ok (t - hi, i) := by rw [hsd]; exact hA
  have hB' : computeTIndex s' t = .ok (t - hi, i) := by rw [hsd]; exact hB
  have n0' : normTime s' hi i = 0 := by rw [hsd]; exact n0
  have n1' : normTime s' t i = 1 := by rw [hsd]; exact n1
  have hcs : ∀ j, j < s.coeffs.length + 1 → ∀ e : Fin D, s'.coeffs.getD j 0 e =
      if j < s.coeffs.length - 1 then s.coeffs.getD j 0 e else x ((j - (s.coeffs.length - 1)) * D + e) := by
    intro j hj e
    rw [sc, setLastTwo_get (by omega) j (by omega), qcl, show s.coeffs.length + 1 - 2 = s.coeffs.length - 1 by omega]
    by_cases h : j < s.coeffs.length - 1
    · rw [if_pos h, if_pos h, qc, List.getD_append _ _ _ _ (by omega)]
    · rw [if_neg h, if_neg h]
  have hev : ∀ (u : K) (e : Fin D), ∑ c ∈ range s.order, s'.coeffs.getD (i + 1 - s.order + c) 0 e *
        bw (knotAt τ') s.order i c u =
      (∑ j ∈ range (s.order - 2), bw (knotAt τ') s.order i j u * q.coeffs.getD (i + 1 - s.order + j) 0 e) +
      (bw (knotAt τ') s.order i (s.order - 2 + 0) u * x e +
        bw (knotAt τ') s.order i (s.order - 2 + 1) u * x (D + e)) := by
    intro u e
    obtain ⟨b, hb⟩ : ∃ b, b = i + 1 - s.order := ⟨_, rfl⟩
    rw [← hb]
    have e3 : ∀ f : Nat → K, ∑ c ∈ range s.order, f c =
        ∑ c ∈ range (s.order - 2), f c + (f (s.order - 2 + 0) + f (s.order - 2 + 1)) := by
      intro f
      rw [show range s.order = range (s.order - 2 + 1 + 1) by congr 1; omega, sum_range_succ, sum_range_succ,
        add_assoc]
      rfl
    rw [e3]
    congr 1
    · apply sum_congr rfl
      intro c hc'
      have hc' : c < s.order - 2 := by simpa using hc'
      rw [hcs _ (by omega), if_pos (by omega), qc, List.getD_append _ _ _ _ (by omega), mul_comm]
    · rw [hcs _ (by omega), hcs _ (by omega), if_neg (by omega), if_neg (by omega),
        show b + (s.order - 2 + 0) - (s.coeffs.length - 1) = 0 by omega,
        show b + (s.order - 2 + 1) - (s.coeffs.length - 1) = 1 by omega]
      simp only [Nat.zero_mul, Nat.zero_add, Nat.one_mul]
      ring
  refine ⟨s', ?_, w', so, ?_, ?_, ?_, ?_, ?_, ?_, ?_⟩
  · unfold addCurveSegment
    rw [hhi', Out.ok_bind, if_neg (by simpa using ht)]
    simp only [hI, Out.ok_bind, hp0, hp]
    rw [if_neg (by omega)]
    rw [show knotAt s.knots (i - 1 + 1) = hi by rw [show i - 1 + 1 = s.knots.length - s.order by omega, hhi]]
    rw [← hτ, e1]
    simp only [Out.ok_bind, hJ, hfix, r0, r1, Out.pure_eq]
    rw [hsd, hxd]
  · rw [w'.tMin_eq, so, sk, hold _ (by omega), ← w.tMin_eq, hlo]
  · rw [w'.tMax_eq, so, sk, show τ'.length - s.order = i + 1 by omega, hnew]
  · rw [so, sk]
    unfold numValidTimeSegments
    omega
  · rw [hp0, evalD_of w' hA']
    congr 1
    funext e
    simp only [n0', so, sk, weights_eq_bw _ _ _ _ _ hseg]
    rw [hev, z1, zero_mul, add_zero, (sol2 e).1, b0 e]
    ring
  · rw [evalD_of w' hB']
    congr 1
    funext e
    simp only [n1', so, sk, weights_eq_bw _ _ _ _ _ hseg]
    rw [hev, (sol2 e).2, b1 e]
    ring
  · intro j hj
    rw [sc, setLastTwo, List.getElem?_append_left (by simp; omega), List.getElem?_take, if_pos (by omega), qc,
      List.getElem?_append_left (by omega)]
  · intro m I hm hIm y h1 h2 h3 d
    have hm2 : m < numValidTimeSegments s.order s.knots.length := by
      by_contra hcon
      unfold timeInterval at hIm
      rw [minimumKnotsRequired_eq _ (by omega), if_neg (by omega), if_pos (by omega)] at hIm
      cases hIm
    have hIe : I = (knotAt s.knots (s.order + m - 1), knotAt s.knots (s.order + m)) := by
      unfold timeInterval at hIm
      rw [minimumKnotsRequired_eq _ (by omega), if_neg (by omega), if_neg (by omega)] at hIm
      exact (Out.ok.inj hIm).symm
    rw [hIe] at h1 h2
    simp only at h1 h2
    have htol : (0 : K) < 1 / 10000000000 := by positivity
    have h0 : knotAt s.knots (s.order - 1) ≤ y := le_trans (w.sorted _ _ (by omega) (by omega)) h1
    have ns : ¬ Snapped s y := by
      unfold Snapped snapTol
      rw [hhi, abs_of_nonneg (by linarith)]
      exact not_lt.2 (by linarith)
    have ns' : ¬ Snapped s' y := by
      unfold Snapped snapTol
      rw [sk, so, show τ'.length - s.order = i + 1 by omega, hnew, abs_of_nonneg (by linarith)]
      exact not_lt.2 (by linarith)
    have at1 : ∃ a, computeTIndex s y = .ok (a, s.order + m - 1) := by
      obtain ⟨idx, c1, c2, c3, c4, c5⟩ := computeTIndex_mid w h0 (by rw [hhi]; linarith) ns
      have : idx = s.order + m - 1 := by
        rcases lt_trichotomy idx (s.order + m - 1) with h | h | h
        · have := w.sorted (idx + 1) (s.order + m - 1) (by omega) (by omega)
          linarith
        · exact h
        · have := w.sorted (s.order + m) idx (by omega) (by omega)
          linarith
      exact ⟨_, by rw [c5, this]⟩
    have at2 : ∃ a, computeTIndex s' y = .ok (a, s.order + m - 1) := by
      obtain ⟨idx, c1, c2, c3, c4, c5⟩ := computeTIndex_mid w' (t := y)
        (by rw [so, sk, hold _ (by omega)]; exact h0)
        (by rw [so, sk, show τ'.length - s.order = i + 1 by omega, hnew]; linarith) ns'
      rw [so, sk] at c2
      rw [sk] at c3 c4
      have : idx = s.order + m - 1 := by
        rcases lt_trichotomy idx (s.order + m - 1) with h | h | h
        · have := w.sorted (idx + 1) (s.order + m - 1) (by omega) (by omega)
          rw [hold _ (by omega)] at c4
          linarith
        · exact h
        · have := hs' (s.order + m) idx (by omega) (by omega)
          rw [hold (s.order + m) (by omega)] at this
          linarith
      exact ⟨_, by rw [c5, this]⟩
    obtain ⟨a1, at1⟩ := at1
    obtain ⟨a2, at2⟩ := at2
    refine eval_same w w' so at1 at2 (fun j hj => by rw [sk]; exact hold j (by omega)) (fun j hj => ?_) d
    funext e
    rw [hcs j (by omega)]
    by_cases hj2 : j < s.coeffs.length - 1
    · rw [if_pos hj2]
    · rw [if_neg hj2]
      have ho2 : s.order = 2 := by omega
      have hj3 : j = s.coeffs.length - 1 := by omega
      have hend := eval_end_two w ho2 hhi' (by rw [← hi1]; exact hlast)
      rw [hp0] at hend
      have hend := congrFun (Out.ok.inj hend) e
      have hone : bw (knotAt τ') s.order i (s.order - 2 + 0) 0 = 1 := by
        rw [ho2, bw_succ _ _ _ _ _ (by omega)]
        simp [bw_one, omg, d0]
      have := (sol2 e).1
      rw [hone, one_mul, b0 e, ho2] at this
      rw [hj3, Nat.sub_self, Nat.zero_mul, Nat.zero_add, this, ← hend]
      simp

/-- **C113** (rejections).  A time that is not after the end of the spline is rejected. -/
theorem C113_rejects (sol : Solvers K) (junk : Fin D → K) {hi t : K} (hhi : tMax s = .ok hi) (ht : t ≤ hi)
    (p1 : Fin D → K) : addCurveSegment sol junk s t p1 = .raise := by
  unfold addCurveSegment
  rw [hhi, Out.ok_bind, if_pos (not_lt.2 ht)]

/-- The spline of the counterexample: cubic, uniform knots, one segment `[3, 4]`. -/
def cubic : Spline ℚ 1 := ⟨4, [0, 1, 2, 3, 4, 5, 6, 7], [fun _ => 0, fun _ => 0, fun _ => 1, fun _ => 0],
  initBasis 4 [0, 1, 2, 3, 4, 5, 6, 7]⟩

theorem cubic_ok : WellFormed cubic := ⟨by decide, by decide, by decide, rfl, by
  apply adjacent_sorted
  decide +kernel⟩

theorem addCurve_knots {sol : Solvers K} {junk : Fin D → K} {t : K} {p1 : Fin D → K} {s' : Spline K D}
    (h : addCurveSegment sol junk s t p1 = .ok s') :
    ∃ I p, timeInterval s (numValidTimeSegments s.order s.knots.length - 1) = .ok I ∧
      computeTIndex s I.1 = .ok p ∧
      s'.knots = extendKnots s.knots p.2 t (t - knotAt s.knots (p.2 + 1)) := by
  unfold addCurveSegment at h
  obtain ⟨hi, h1, h⟩ := Out.bind_eq_ok.mp h
  by_cases hc : ¬ hi < t
  · rw [if_pos hc] at h; cases h
  rw [if_neg hc] at h
  obtain ⟨I, h2, h⟩ := Out.bind_eq_ok.mp h
  obtain ⟨p0, h3, h⟩ := Out.bind_eq_ok.mp h
  obtain ⟨p, h4, h⟩ := Out.bind_eq_ok.mp h
  by_cases hc : s.knots.length ≤ p.2 + 1
  · rw [if_pos hc] at h; cases h
  rw [if_neg hc] at h
  obtain ⟨q, h5, h⟩ := Out.bind_eq_ok.mp h
  obtain ⟨J, h6, h⟩ := Out.bind_eq_ok.mp h
  obtain ⟨v, h7, h⟩ := Out.bind_eq_ok.mp h
  obtain ⟨r0, h8, h⟩ := Out.bind_eq_ok.mp h
  obtain ⟨r1, h9, h⟩ := Out.bind_eq_ok.mp h
  rw [Out.pure_eq] at h
  have h := Out.ok.inj h
  refine ⟨I, p, h2, h4, ?_⟩
  rw [← h]
  show q.knots = _
  unfold setKnotsAndCoefficients at h5
  obtain ⟨_, _, h5⟩ := Out.bind_eq_ok.mp h5
  by_cases hc : numCoefficientsRequired s.order (numValidTimeSegments s.order
      (extendKnots s.knots p.2 t (t - knotAt s.knots (p.2 + 1))).length) ≠ (s.coeffs ++ [junk]).length
  · rw [if_pos hc] at h5; cases h5
  rw [if_neg hc, Out.pure_eq] at h5
  rw [← Out.ok.inj h5]

/-- **C113** (counterexample).  For cubic splines, appending a segment changes the curve at earlier times,
whatever the new point is, when the new segment does not have the length of the previous knot intervals. -/
theorem C113_counterexample : tMin cubic = .ok 3 ∧ tMax cubic = .ok 4 ∧
    evalD cubic 3 0 = .ok (fun _ => 1 / 6) ∧
    ∀ sol, Exact sol → ∀ junk p1, ∃ s', addCurveSegment sol junk cubic 6 p1 = .ok s' ∧
      evalD s' 3 0 = .ok (fun _ => 1 / 8) := by
  have hlo : tMin cubic = .ok 3 := by decide +kernel
  have hhi : tMax cubic = .ok 4 := by decide +kernel
  refine ⟨hlo, hhi, ?_, ?_⟩
  · have : computeTIndex cubic 3 = .ok (1, 3) := by decide +kernel
    rw [evalD_of cubic_ok this]
    congr 1
    funext e
    have he : e = 0 := Subsingleton.elim _ _
    subst he
    decide +kernel
  · intro sol hx junk p1
    obtain ⟨s', h, w, ho, hlo', hhi', _, _, _, hco, _⟩ := C113_extend_partial hx junk cubic_ok hlo hhi (t := 6)
      (by norm_num) (L := (3, 4)) (by decide +kernel) (by norm_num) p1
    refine ⟨s', h, ?_⟩
    obtain ⟨I, p, g1, g2, g3⟩ := addCurve_knots h
    have : timeInterval cubic (numValidTimeSegments cubic.order cubic.knots.length - 1) = .ok (3, 4) := by
      decide +kernel
    rw [this] at g1
    rw [← Out.ok.inj g1] at g2
    have : computeTIndex cubic 3 = .ok (1, 3) := by decide +kernel
    rw [show ((3, 4) : ℚ × ℚ).1 = 3 from rfl, this] at g2
    rw [← Out.ok.inj g2] at g3
    have hkn : s'.knots = [0, 1, 2, 3, 4, 6, 8, 10, 12] := by rw [g3]; decide +kernel
    have hord : s'.order = 4 := ho
    have hloc : computeTIndex s' 3 = .ok (1, 3) := by
      unfold computeTIndex tMin tMax
      rw [hkn, hord]
      decide +kernel
    rw [evalD_of w hloc]
    congr 1
    funext e
    have c0 : s'.coeffs.getD 0 0 = fun _ => 0 := by
      rw [List.getD_eq_getElem?_getD, hco 0 (by decide)]; rfl
    have c1 : s'.coeffs.getD 1 0 = fun _ => 0 := by
      rw [List.getD_eq_getElem?_getD, hco 1 (by decide)]; rfl
    have c2 : s'.coeffs.getD 2 0 = fun _ => 1 := by
      rw [List.getD_eq_getElem?_getD, hco 2 (by decide)]; rfl
    have hn : normTime s' 3 3 = 0 := by
      unfold normTime
      rw [hkn]
      decide +kernel
    simp only [hn, hord, hkn]
    rw [sum_range_succ, sum_range_succ, sum_range_succ, sum_range_one]
    have wt : weights 4 (basisM (knotAt [0, 1, 2, 3, 4, 6, 8, 10, 12]) 4 3)
        (computeU (knotAt [0, 1, 2, 3, 4, 6, 8, 10, 12]) 4 (0 : ℚ) 3 0) 2 = 1 / 8 := by decide +kernel
    have wt3 : weights 4 (basisM (knotAt [0, 1, 2, 3, 4, 6, 8, 10, 12]) 4 3)
        (computeU (knotAt [0, 1, 2, 3, 4, 6, 8, 10, 12]) 4 (0 : ℚ) 3 0) 3 = 0 := by decide +kernel
    rw [wt, wt3]
    simp only [Nat.add_zero, show 3 + 1 - 4 = 0 from rfl, Nat.zero_add, c0, c1, c2]
    ring

end Kalibr.Fit
