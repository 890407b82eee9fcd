import Verif.BSpline.Locate
import Verif.BSpline.Spec
import Mathlib.Algebra.Order.Field.Rat

/-!
# Properties of the B-spline (C41–C45, C47)

`WellFormed s` (in `Locate.lean`) says: order ≥ 2, at least `2·order` knots, nondecreasing knots, as
many coefficients as `knots - order`, and basis matrices computed from those knots.  It is what
`setKnotsAndCoefficients` establishes for nondecreasing knots (`setKnots_wellFormed`).

Findings:

* C41/C42: when the last segment is empty (`knots[n-k-1] = knots[n-k]`) evaluation within `1e-10` of
  `t_max` uses the empty segment, all weights are zero and the value is zero.
* C43: a time within `1e-10` of `t_max` is located in the last segment even when it lies in an
  earlier one.
* C44: the monotonicity loop runs over the size of the *old* knot vector.
* C45: `removeCurveSegment` keeps the basis matrices of the old segments.
-/

namespace Kalibr.BSpline

open Finset

variable {K : Type} [Field K] [LinearOrder K] [IsStrictOrderedRing K] {D : Nat} {s : Spline K D}

/-- Away from the end, or the last segment is non-empty. -/
def Regular (s : Spline K D) (t : K) : Prop :=
  ¬ Snapped s t ∨
    knotAt s.knots (s.knots.length - s.order - 1) < knotAt s.knots (s.knots.length - s.order)

/-- Away from the end, or in the non-empty last segment. -/
def Bracketed (s : Spline K D) (t : K) : Prop :=
  ¬ Snapped s t ∨
    (knotAt s.knots (s.knots.length - s.order - 1) ≤ t ∧
     knotAt s.knots (s.knots.length - s.order - 1) < knotAt s.knots (s.knots.length - s.order))

theorem Bracketed.regular {t : K} (h : Bracketed s t) : Regular s t := by
  rcases h with h | ⟨_, h⟩
  · exact Or.inl h
  · exact Or.inr h

/-- Every time in the domain is accepted. -/
theorem accepted (w : WellFormed s) {lo hi t : K} (hlo : tMin s = .ok lo) (hhi : tMax s = .ok hi)
    (h1 : lo ≤ t) (h2 : t ≤ hi) : ∃ p, computeTIndex s t = .ok p := by
  rw [w.tMin_eq] at hlo; rw [w.tMax_eq] at hhi
  cases hlo; cases hhi
  by_cases h : Snapped s t
  · exact ⟨_, computeTIndex_snapped w h1 h⟩
  · rcases lt_or_eq_of_le h2 with h2 | h2
    · obtain ⟨idx, _, _, _, _, h⟩ := computeTIndex_mid w h1 h2 h
      exact ⟨_, h⟩
    · exfalso; apply h; rw [h2]; exact snapped_end

theorem seg_pos (w : WellFormed s) {t : K} {p : K × Nat} (h : computeTIndex s t = .ok p)
    (hr : Regular s t) : knotAt s.knots p.2 < knotAt s.knots (p.2 + 1) := by
  obtain ⟨_, _, _, _, h5⟩ := computeTIndex_ok w h
  rcases h5 with ⟨h5, h6⟩ | ⟨h5, h6, h7⟩
  · rcases hr with hr | hr
    · exact absurd h5 hr
    · rw [h6]
      rwa [show s.knots.length - s.order - 1 = p.2 by omega] at hr
  · linarith

theorem seg_bracket (w : WellFormed s) {lo hi t : K} (_hlo : tMin s = .ok lo)
    (hhi : tMax s = .ok hi) (h2 : t ≤ hi) {p : K × Nat}
    (h : computeTIndex s t = .ok p) (hr : Bracketed s t) :
    knotAt s.knots p.2 ≤ t ∧ t ≤ knotAt s.knots (p.2 + 1) := by
  rw [w.tMax_eq] at hhi; cases hhi
  obtain ⟨_, _, _, _, h5⟩ := computeTIndex_ok w h
  rcases h5 with ⟨h5, h6⟩ | ⟨h5, h6, h7⟩
  · rcases hr with hr | ⟨hr, _⟩
    · exact absurd h5 hr
    · rw [show s.knots.length - s.order - 1 = p.2 by omega] at hr
      rw [h6]
      exact ⟨hr, h2⟩
  · exact ⟨h6, h7.le⟩

theorem computeU_sum (τ : Nat → K) (k i d : Nat) (u : K) (hk : 1 ≤ k) (hseg : τ i < τ (i + 1)) :
    ∑ c ∈ range k, weights k (basisM τ k i) (computeU τ k u i d) c = if d = 0 then 1 else 0 := by
  unfold weights
  rw [sum_comm]
  have : ∀ r ∈ range k, ∑ c ∈ range k, basisM τ k i r c * computeU τ k u i d r =
      if r = 0 then (if d = 0 then 1 else 0) else 0 := by
    intro r hr
    rw [← sum_mul, basisM_row_sum τ k i r hk (by simpa using hr)]
    by_cases h : r = 0
    · subst h
      simp only [if_true, one_mul]
      unfold computeU
      have h2 : 0 < τ (i + 1) - τ i := by linarith
      by_cases hd : d = 0
      · subst hd; simp [h2, dmul]; omega
      · simp [hd]
    · simp [h]
  rw [sum_congr rfl this]
  simp
  omega

/-! ## C41 -/

/-- C41: at every regular time of the valid interval the local weights exist and sum to one; they
are non-negative when the located segment brackets the time. -/
theorem C41_weights_partial (w : WellFormed s) {lo hi t : K} (hlo : tMin s = .ok lo)
    (hhi : tMax s = .ok hi) (h1 : lo ≤ t) (h2 : t ≤ hi) (hr : Regular s t) :
    ∃ b, localBi s t 0 = .ok b ∧ ∑ c ∈ range s.order, b c = 1 ∧
      (Bracketed s t → ∀ c < s.order, 0 ≤ b c) := by
  obtain ⟨p, hp⟩ := accepted w hlo hhi h1 h2
  obtain ⟨_, a1, a2, _, _⟩ := computeTIndex_ok w hp
  have hk := w.order_ge; have hn := w.enough
  have hseg := seg_pos w hp hr
  refine ⟨_, localBi_of w hp 0, ?_, ?_⟩
  · rw [computeU_sum _ _ _ _ _ (by omega) hseg]; simp
  · intro hb c hc
    obtain ⟨b1, b2⟩ := seg_bracket w hlo hhi h2 hp hb
    have hpos : 0 < knotAt s.knots (p.2 + 1) - knotAt s.knots p.2 := by linarith
    rw [weights_eq_bw _ _ _ _ _ hseg]
    apply bw_nonneg (knotAt s.knots) s.knots.length _ _ _ _ w.sorted (by omega) (by omega)
      (by omega) hc
    · unfold normTime
      rw [if_neg (not_le.2 hpos)]
      exact div_nonneg (by linarith) hpos.le
    · unfold normTime
      rw [if_neg (not_le.2 hpos), div_le_one hpos]
      linarith

/-- C41: the weights of every derivative of the curve sum to zero. -/
theorem C41_derivative_weights_partial (w : WellFormed s) {lo hi t : K} (hlo : tMin s = .ok lo)
    (hhi : tMax s = .ok hi) (h1 : lo ≤ t) (h2 : t ≤ hi) (hr : Regular s t) (d : Nat) (hd : 1 ≤ d) :
    ∃ b, localBi s t d = .ok b ∧ ∑ c ∈ range s.order, b c = 0 := by
  obtain ⟨p, hp⟩ := accepted w hlo hhi h1 h2
  have hk := w.order_ge
  refine ⟨_, localBi_of w hp d, ?_⟩
  rw [computeU_sum _ _ _ _ _ (by omega) (seg_pos w hp hr), if_neg (by omega)]

/-- C41: a spline whose coefficients are all equal is constant. -/
theorem C41_constant_partial (w : WellFormed s) {lo hi t : K} (hlo : tMin s = .ok lo)
    (hhi : tMax s = .ok hi) (h1 : lo ≤ t) (h2 : t ≤ hi) (hr : Regular s t) (v : Fin D → K)
    (hv : ∀ x ∈ s.coeffs, x = v) : evalD s t 0 = .ok v := by
  obtain ⟨p, hp⟩ := accepted w hlo hhi h1 h2
  obtain ⟨_, a1, a2, _, _⟩ := computeTIndex_ok w hp
  have hk := w.order_ge; have hn := w.enough; have hc := w.count
  rw [evalD_of w hp]
  congr 1
  funext e
  have : ∀ c ∈ range s.order, (s.coeffs.getD (p.2 + 1 - s.order + c) 0) e *
      weights s.order (basisM (knotAt s.knots) s.order p.2)
      (computeU (knotAt s.knots) s.order (normTime s t p.2) p.2 0) c =
      v e * weights s.order (basisM (knotAt s.knots) s.order p.2)
      (computeU (knotAt s.knots) s.order (normTime s t p.2) p.2 0) c := by
    intro c hcr
    have hcr : c < s.order := by simpa using hcr
    have hl : p.2 + 1 - s.order + c < s.coeffs.length := by omega
    rw [List.getD_eq_getElem?_getD, List.getElem?_eq_getElem hl, Option.getD_some,
      hv _ (List.getElem_mem hl)]
  rw [sum_congr rfl this, ← mul_sum, computeU_sum _ _ _ _ _ (by omega) (seg_pos w hp hr)]
  simp

/-! ## C42 -/

theorem window_sum (f : Nat → K) (L k a : Nat) (h : a + k ≤ L)
    (h0 : ∀ m, m < L → ¬ (a ≤ m ∧ m < a + k) → f m = 0) :
    ∑ m ∈ range L, f m = ∑ c ∈ range k, f (a + c) := by
  have : ∑ m ∈ Ico a (a + k), f m = ∑ m ∈ range L, f m := by
    apply sum_subset
    · intro x hx
      simp at hx ⊢; omega
    · intro x hx hx'
      simp at hx hx'
      exact h0 x hx (by omega)
  rw [← this, sum_Ico_eq_sum_range]
  simp

theorem eval_eq_cox (w : WellFormed s) {t : K} {p : K × Nat} (hp : computeTIndex s t = .ok p)
    (hseg : knotAt s.knots p.2 < knotAt s.knots (p.2 + 1)) (base : Nat → K)
    (hbase : ∀ j, j + 1 < s.knots.length → base j = if j = p.2 then 1 else 0) :
    evalD s t 0 = .ok fun e => ∑ m ∈ range s.coeffs.length,
      cox (knotAt s.knots) base t (s.order - 1) m * (s.coeffs.getD m 0) e := by
  obtain ⟨_, a1, a2, _, _⟩ := computeTIndex_ok w hp
  have hk := w.order_ge; have hn := w.enough; have hc := w.count
  rw [evalD_of w hp]
  congr 1
  funext e
  have key : ∀ m, m < s.coeffs.length →
      cox (knotAt s.knots) base t (s.order - 1) m =
      if p.2 ≤ m + (s.order - 1) ∧ m ≤ p.2 then
        bw (knotAt s.knots) s.order p.2 (m + (s.order - 1) - p.2) (normTime s t p.2) else 0 := by
    intro m hm
    rw [cox_congr _ base (fun j => if j = p.2 then 1 else 0) t _ m
      (fun j _ h2 => hbase j (by omega)),
      cox_eq_bw _ s.knots.length (s.order - 1) p.2 m (normTime s t p.2) t w.sorted hseg
        (normTime_spec hseg) a1 (by omega), show s.order - 1 + 1 = s.order by omega]
  rw [window_sum _ s.coeffs.length s.order (p.2 + 1 - s.order) (by omega)]
  · apply sum_congr rfl
    intro c hcr
    have hcr : c < s.order := by simpa using hcr
    rw [key _ (by omega), if_pos (by omega), weights_eq_bw _ _ _ _ _ hseg, mul_comm,
      show p.2 + 1 - s.order + c + (s.order - 1) - p.2 = c by omega]
  · intro m hm hnot
    rw [key m hm, if_neg (by omega), zero_mul]

/-- C42: before `t_max` (and, within `1e-10` of it, in the non-empty last segment) the value is the
B-spline of the knots and coefficients. -/
theorem C42_eval_partial (w : WellFormed s) {lo hi t : K} (hlo : tMin s = .ok lo)
    (hhi : tMax s = .ok hi) (h1 : lo ≤ t) (h2 : t < hi) (hb : Bracketed s t) :
    evalD s t 0 = .ok fun e => ∑ m ∈ range s.coeffs.length,
      bsplineN (knotAt s.knots) s.order m t * (s.coeffs.getD m 0) e := by
  obtain ⟨p, hp⟩ := accepted w hlo hhi h1 h2.le
  obtain ⟨_, a1, a2, _, a5⟩ := computeTIndex_ok w hp
  have hn := w.enough; have hk := w.order_ge
  have hseg := seg_pos w hp hb.regular
  have hbr : knotAt s.knots p.2 ≤ t ∧ t < knotAt s.knots (p.2 + 1) := by
    refine ⟨(seg_bracket w hlo hhi h2.le hp hb).1, ?_⟩
    rcases a5 with ⟨_, h6⟩ | ⟨_, _, h7⟩
    · rw [w.tMax_eq] at hhi; cases hhi; rw [h6]; exact h2
    · exact h7
  apply eval_eq_cox w hp hseg
  intro j hj
  by_cases h : j = p.2
  · subst h; rw [if_pos hbr, if_pos rfl]
  · rw [if_neg h, if_neg]
    rintro ⟨g1, g2⟩
    rcases Nat.lt_or_gt_of_ne h with h | h
    · have := w.sorted (j + 1) p.2 (by omega) (by omega)
      linarith [hbr.1]
    · have := w.sorted (p.2 + 1) j (by omega) (by omega)
      linarith [hbr.2]

/-- C42 at the end point: the left-continuous B-spline, if the last segment is not empty. -/
theorem C42_eval_end_partial (w : WellFormed s) {lo hi : K} (hlo : tMin s = .ok lo)
    (hhi : tMax s = .ok hi)
    (hlast : knotAt s.knots (s.knots.length - s.order - 1) <
      knotAt s.knots (s.knots.length - s.order)) :
    evalD s hi 0 = .ok fun e => ∑ m ∈ range s.coeffs.length,
      bsplineNLeft (knotAt s.knots) s.order m hi * (s.coeffs.getD m 0) e := by
  have hn := w.enough; have hk := w.order_ge
  rw [w.tMin_eq] at hlo; rw [w.tMax_eq] at hhi; cases hlo; cases hhi
  have hle := w.sorted (s.order - 1) (s.knots.length - s.order) (by omega) (by omega)
  have hp := computeTIndex_snapped w hle snapped_end
  have e1 : s.knots.length - s.order - 1 + 1 = s.knots.length - s.order := by omega
  apply eval_eq_cox w hp (by simpa only [e1] using hlast)
  intro j hj
  by_cases h : j = s.knots.length - s.order - 1
  · rw [if_pos h, h, e1, if_pos ⟨hlast, le_refl _⟩]
  · rw [if_neg h, if_neg]
    rintro ⟨g1, g2⟩
    rcases Nat.lt_or_gt_of_ne h with h | h
    · have := w.sorted (j + 1) (s.knots.length - s.order - 1) (by omega) (by omega)
      linarith
    · have := w.sorted (s.knots.length - s.order) j (by omega) (by omega)
      linarith

/-! ## C43 -/

/-- C43: the valid interval is from knot `order - 1` to knot `n - order` (both exist), and its
segments `timeInterval(0), ..., timeInterval(segments-1)` tile it. -/
theorem C43_valid_interval (w : WellFormed s) :
    ∃ lo hi, tMin s = .ok lo ∧ tMax s = .ok hi ∧ lo ≤ hi ∧ s.knots[s.order - 1]? = some lo ∧
      s.knots[s.knots.length - s.order]? = some hi ∧
      (∃ b, timeInterval s 0 = .ok (lo, b)) ∧
      (∃ a, timeInterval s (numValidTimeSegments s.order s.knots.length - 1) = .ok (a, hi)) ∧
      (∀ i, i + 1 < numValidTimeSegments s.order s.knots.length → ∃ a b c,
        timeInterval s i = .ok (a, b) ∧ timeInterval s (i + 1) = .ok (b, c) ∧ a ≤ b ∧ b ≤ c) ∧
      ∀ i, numValidTimeSegments s.order s.knots.length ≤ i → timeInterval s i = .raise := by
  have hn := w.enough; have hk := w.order_ge
  have hmin := minimumKnotsRequired_eq s.order (by omega)
  refine ⟨_, _, w.tMin_eq, w.tMax_eq, w.sorted _ _ (by omega) (by omega), ?_, ?_, ?_, ?_, ?_, ?_⟩
  · rw [knotAt_getElem _ _ (by omega)]; exact List.getElem?_eq_getElem _
  · rw [knotAt_getElem _ _ (by omega)]; exact List.getElem?_eq_getElem _
  · unfold timeInterval numValidTimeSegments
    rw [hmin, if_neg (by omega), if_neg (by omega)]
    exact ⟨_, rfl⟩
  · unfold timeInterval numValidTimeSegments
    rw [hmin, if_neg (by omega), if_neg (by omega),
      show s.order + (s.knots.length + 1 - 2 * s.order - 1) = s.knots.length - s.order by omega]
    exact ⟨_, rfl⟩
  · intro i hi
    unfold timeInterval
    rw [hmin, if_neg (by omega), if_neg (by omega), if_neg (by omega), if_neg (by omega)]
    unfold numValidTimeSegments at hi
    refine ⟨_, _, knotAt s.knots (s.order + (i + 1)), rfl, ?_, ?_, ?_⟩
    · rw [show s.order + (i + 1) - 1 = s.order + i by omega]
    · exact w.sorted _ _ (by omega) (by omega)
    · exact w.sorted _ _ (by omega) (by omega)
  · intro i hi
    unfold timeInterval
    rw [hmin, if_neg (by omega), if_pos hi]

/-- C43: which times raise.  No time is undefined behaviour, the index is that of a segment, the
coefficient window lies inside the coefficient matrix and the matrix of the segment exists. -/
theorem C43_in_range (w : WellFormed s) {lo hi : K} (hlo : tMin s = .ok lo) (hhi : tMax s = .ok hi)
    (t : K) :
    (t < lo ∨ (hi < t ∧ snapTol ≤ |hi - t|) → computeTIndex s t = .raise ∧
      ∀ d, evalD s t d = .raise) ∧
    (¬ (t < lo ∨ (hi < t ∧ snapTol ≤ |hi - t|)) → ∃ p, computeTIndex s t = .ok p ∧
      s.order - 1 ≤ p.2 ∧ p.2 < s.knots.length - s.order ∧
      (p.2 + 1 - s.order) + s.order ≤ s.coeffs.length ∧
      p.2 + 1 - s.order < s.basis.length ∧
      p.1 = knotAt s.knots (p.2 + 1) - knotAt s.knots p.2 ∧
      ∀ d, ∃ v, evalD s t d = .ok v) := by
  rw [w.tMin_eq] at hlo; rw [w.tMax_eq] at hhi; cases hlo; cases hhi
  have hn := w.enough; have hk := w.order_ge; have hc := w.count
  constructor
  · intro h
    have : computeTIndex s t = .raise := by
      rcases h with h | ⟨h, h'⟩
      · exact computeTIndex_low w h
      · exact computeTIndex_high w h (not_lt.2 h')
    exact ⟨this, fun d => evalD_raise this d⟩
  · intro h
    push Not at h
    have hp : ∃ p, computeTIndex s t = .ok p := by
      by_cases hs : Snapped s t
      · exact ⟨_, computeTIndex_snapped w h.1 hs⟩
      · have : t ≤ knotAt s.knots (s.knots.length - s.order) := by
          by_contra hc
          push Not at hc
          exact hs (h.2 hc)
        exact accepted w w.tMin_eq w.tMax_eq h.1 this
    obtain ⟨p, hp⟩ := hp
    obtain ⟨_, a1, a2, a3, _⟩ := computeTIndex_ok w hp
    refine ⟨p, hp, a1, a2, by omega, ?_, a3, fun d => ⟨_, evalD_of w hp d⟩⟩
    have := w.basis_get a1 a2
    exact (List.getElem?_eq_some_iff.1 this).1

/-- C43: the segment brackets the time, outside the last `1e-10` or inside the last segment. -/
theorem C43_bracket_partial (w : WellFormed s) {lo hi t : K} (hlo : tMin s = .ok lo)
    (hhi : tMax s = .ok hi) (h1 : lo ≤ t) (h2 : t ≤ hi) (hb : Bracketed s t) :
    ∃ p, computeTIndex s t = .ok p ∧ knotAt s.knots p.2 ≤ t ∧ t ≤ knotAt s.knots (p.2 + 1) ∧
      (t < hi → t < knotAt s.knots (p.2 + 1)) := by
  obtain ⟨p, hp⟩ := accepted w hlo hhi h1 h2
  obtain ⟨b1, b2⟩ := seg_bracket w hlo hhi h2 hp hb
  refine ⟨p, hp, b1, b2, ?_⟩
  intro hlt
  obtain ⟨_, _, _, _, a5⟩ := computeTIndex_ok w hp
  rcases a5 with ⟨_, h6⟩ | ⟨_, _, h7⟩
  · rw [w.tMax_eq] at hhi; cases hhi; rw [h6]; exact hlt
  · exact h7

/-! ## C44 -/

/-- Plain reading of "nondecreasing". -/
def Nondecreasing (τ : List K) : Prop := τ.Pairwise (· ≤ ·)

theorem nondecreasing_iff (τ : List K) : Nondecreasing τ ↔ SortedBelow (knotAt τ) τ.length := by
  unfold Nondecreasing SortedBelow
  rw [List.pairwise_iff_getElem]
  constructor
  · intro h a b hab hb
    rw [knotAt_getElem τ a (by omega), knotAt_getElem τ b hb]
    rcases Nat.lt_or_ge a b with h1 | h1
    · exact h a b _ hb h1
    · have : a = b := by omega
      subst this; exact le_refl _
  · intro h i j hi hj hij
    have := h i j (by omega) hj
    rwa [knotAt_getElem τ i hi, knotAt_getElem τ j hj] at this

theorem verifyLoop_spec (τ : List K) (l : List Nat) (hl : ∀ i ∈ l, 1 ≤ i ∧ i < τ.length) :
    ((∀ i ∈ l, knotAt τ (i - 1) ≤ knotAt τ i) → verifyLoop τ l = .ok ()) ∧
    ((¬ ∀ i ∈ l, knotAt τ (i - 1) ≤ knotAt τ i) → verifyLoop τ l = .raise) := by
  induction l with
  | nil => simp [verifyLoop]
  | cons i is ih =>
    obtain ⟨h1, h2⟩ := hl i (by simp)
    have ih := ih (fun j hj => hl j (by simp [hj]))
    unfold verifyLoop
    rw [List.getElem?_eq_getElem (show i - 1 < τ.length by omega), List.getElem?_eq_getElem h2]
    simp only
    rw [← knotAt_getElem τ i h2, ← knotAt_getElem τ (i - 1) (by omega)]
    by_cases h : knotAt τ (i - 1) ≤ knotAt τ i
    · rw [if_pos h]; simpa [h] using ih
    · rw [if_neg h]; simp [h]

theorem adjacent_sorted (τ : List K)
    (h : ∀ i ∈ List.range' 1 (τ.length - 1), knotAt τ (i - 1) ≤ knotAt τ i) :
    SortedBelow (knotAt τ) τ.length := by
  intro a b hab hb
  induction b with
  | zero => have : a = 0 := by omega
            subst this; exact le_refl _
  | succ b ih =>
    rcases Nat.lt_or_ge a (b + 1) with h1 | h1
    · refine le_trans (ih (by omega) (by omega)) ?_
      have := h (b + 1) (by rw [List.mem_range'_1]; omega)
      simpa using this
    · have : a = b + 1 := by omega
      subst this; exact le_refl _

/-- C44: when the new knot vector has the length of the old one, the call succeeds exactly for
nondecreasing sequences that are long enough and come with the matching number of coefficients, and
raises otherwise; a success leaves a well-formed spline. -/
theorem C44_same_length_partial (hk : 2 ≤ s.order) (knots : List K) (coeffs : List (Fin D → K))
    (hlen : s.knots.length = knots.length) :
    (2 * s.order ≤ knots.length ∧ Nondecreasing knots ∧
        coeffs.length + s.order = knots.length →
      ∃ s', setKnotsAndCoefficients s knots coeffs = .ok s' ∧ WellFormed s' ∧ s'.knots = knots ∧
        s'.coeffs = coeffs ∧ s'.order = s.order) ∧
    (¬ (2 * s.order ≤ knots.length ∧ Nondecreasing knots ∧
        coeffs.length + s.order = knots.length) →
      setKnotsAndCoefficients s knots coeffs = .raise) := by
  have hmin := minimumKnotsRequired_eq s.order (by omega)
  have hl := verifyLoop_spec knots (List.range' 1 (s.knots.length - 1))
    (fun i hi => by rw [List.mem_range'_1] at hi; omega)
  constructor
  · rintro ⟨h1, h2, h3⟩
    have hs := (nondecreasing_iff knots).1 h2
    have hok := hl.1 (fun i hi => by
      rw [List.mem_range'_1] at hi; exact hs _ _ (by omega) (by omega))
    refine ⟨{ s with knots := knots, coeffs := coeffs, basis := initBasis s.order knots }, ?_,
      ⟨?_, ?_, ?_, ?_, ?_⟩, rfl, rfl, rfl⟩
    · unfold setKnotsAndCoefficients verifyKnotSequence
      rw [hmin, if_neg (by omega), hok]
      simp only [Out.ok_bind]
      rw [if_neg]
      · rfl
      · unfold numCoefficientsRequired numValidTimeSegments; omega
    · exact hk
    · exact h1
    · exact h3
    · rfl
    · exact hs
  · intro hnot
    unfold setKnotsAndCoefficients verifyKnotSequence
    rw [hmin]
    by_cases h1 : knots.length < 2 * s.order
    · rw [if_pos h1]; rfl
    · rw [if_neg h1]
      by_cases h2 : ∀ i ∈ List.range' 1 (s.knots.length - 1), knotAt knots (i - 1) ≤ knotAt knots i
      · rw [hl.1 h2]
        simp only [Out.ok_bind]
        rw [if_pos]
        intro hc
        apply hnot
        refine ⟨by omega, ?_, ?_⟩
        · rw [nondecreasing_iff]; apply adjacent_sorted; rwa [← hlen]
        · unfold numCoefficientsRequired numValidTimeSegments at hc; omega
      · rw [hl.2 h2]; rfl

/-- C44, the part that holds from every prior state: the counts are checked, and if the sequence is
nondecreasing the result is well-formed. -/
theorem C44_counts_partial (hk : 2 ≤ s.order) {knots : List K} {coeffs : List (Fin D → K)}
    {s' : Spline K D} (h : setKnotsAndCoefficients s knots coeffs = .ok s') :
    2 * s.order ≤ knots.length ∧ coeffs.length + s.order = knots.length ∧
    (Nondecreasing knots → WellFormed s') := by
  have hmin := minimumKnotsRequired_eq s.order (by omega)
  unfold setKnotsAndCoefficients at h
  rw [Out.bind_eq_ok] at h
  obtain ⟨_, h1, h2⟩ := h
  unfold verifyKnotSequence at h1
  rw [hmin] at h1
  by_cases h3 : knots.length < 2 * s.order
  · rw [if_pos h3] at h1; cases h1
  · split at h2
    · cases h2
    · rename_i h4
      push Not at h4
      have hc : coeffs.length + s.order = knots.length := by
        unfold numCoefficientsRequired numValidTimeSegments at h4; omega
      cases h2
      exact ⟨by omega, hc, fun hnd => ⟨hk, by simpa using h3, hc, rfl, (nondecreasing_iff _).1 hnd⟩⟩

/-! ## C45 -/

theorem knotAt_tail (τ : List K) (i : Nat) : knotAt τ.tail i = knotAt τ (i + 1) := by
  unfold knotAt
  cases τ <;> simp

theorem d0_shift (τ τ' : Nat → K) (k i j : Nat) (hk : 1 ≤ k) (h : ∀ x, τ' x = τ (x + 1)) :
    d0 τ' k i j = d0 τ k (i + 1) (j + 1) ∧ d1 τ' k i j = d1 τ k (i + 1) (j + 1) := by
  unfold d0 d1
  simp only [h]
  rw [show j + 1 + k - 1 = j + k - 1 + 1 by omega]
  exact ⟨rfl, rfl⟩

theorem basisM_shift (τ τ' : Nat → K) (k i : Nat) (hk : k ≤ i + 1) (h : ∀ x, τ' x = τ (x + 1))
    (r c : Nat) : basisM τ' k i r c = basisM τ k (i + 1) r c := by
  induction k generalizing r c with
  | zero => rfl
  | succ k ih =>
    cases k with
    | zero => rfl
    | succ k =>
      simp only [basisM]
      have ih := ih (by omega)
      simp only [ih]
      have e : ∀ idx, i + 1 + 2 + idx - (k + 2) = (i + 2 + idx - (k + 2)) + 1 := by
        intro idx; omega
      have hA : ∀ idx, matA τ' (k + 2) i idx c = matA τ (k + 2) (i + 1) idx c := by
        intro idx
        unfold matA
        rw [(d0_shift τ τ' (k + 2) i _ (by omega) h).1, e]
      have hB : ∀ idx, matB τ' (k + 2) i idx c = matB τ (k + 2) (i + 1) idx c := by
        intro idx
        unfold matB
        rw [(d0_shift τ τ' (k + 2) i _ (by omega) h).2, e]
      simp only [hA, hB]

/-- Equally spaced knots. -/
def Uniform (τ : List K) : Prop :=
  ∃ a h : K, 0 < h ∧ ∀ j, j < τ.length → knotAt τ j = a + j * h

theorem basisM_uniform (τ : Nat → K) (n : Nat) (a h : K) (hτ : ∀ j, j < n → τ j = a + j * h)
    (k i : Nat) (hk : k ≤ i + 1) (hn : i + 1 + k < n) (r c : Nat) (hc : c < k) :
    basisM τ k (i + 1) r c = basisM τ k i r c := by
  induction k generalizing r c with
  | zero => rfl
  | succ k ih =>
    cases k with
    | zero => rfl
    | succ k =>
      simp only [basisM]
      have ih := ih (by omega) (by omega)
      have e : ∀ idx, i + 1 + 2 + idx - (k + 2) = (i + 2 + idx - (k + 2)) + 1 := by
        intro idx; omega
      have hd : ∀ j, j ≤ i → d0 τ (k + 2) (i + 1) (j + 1) = d0 τ (k + 2) i j ∧
          d1 τ (k + 2) (i + 1) (j + 1) = d1 τ (k + 2) i j := by
        intro j hj
        unfold d0 d1
        rw [hτ (j + 1 + (k + 2) - 1) (by omega), hτ (j + 1) (by omega), hτ (i + 1) (by omega),
          hτ (i + 1 + 1) (by omega), hτ (j + (k + 2) - 1) (by omega), hτ j (by omega),
          hτ i (by omega), show j + 1 + (k + 2) - 1 = (j + (k + 2) - 1) + 1 by omega]
        push_cast
        constructor <;>
        · congr 1
          · congr 1; ring_nf
          · congr 1 <;> ring
      congr 1
      · apply sum_congr rfl
        intro idx hidx
        have hidx : idx < k + 1 := by simpa using hidx
        have hA : matA τ (k + 2) (i + 1) idx c = matA τ (k + 2) i idx c := by
          unfold matA
          rw [e, (hd _ (by omega)).1]
        rw [hA]
        split
        · rw [ih r idx hidx]
        · rfl
      · apply sum_congr rfl
        intro idx hidx
        have hidx : idx < k + 1 := by simpa using hidx
        have hB : matB τ (k + 2) (i + 1) idx c = matB τ (k + 2) i idx c := by
          unfold matB
          rw [e, (hd _ (by omega)).2]
        rw [hB]
        split
        · rw [ih (r - 1) idx hidx]
        · rfl

theorem upperBound_tail (τ : List K) (t : K) (h0 : knotAt τ 0 ≤ t) (hne : 0 < τ.length) :
    upperBound τ t = upperBound τ.tail t + 1 := by
  cases τ with
  | nil => simp at hne
  | cons x xs =>
    have : ¬ t < x := not_lt.2 (by simpa [knotAt] using h0)
    simp [upperBound, List.findIdx_cons, this]

/-- C45: on uniform knots with at least two segments, dropping the oldest segment leaves the value
and every derivative unchanged on the remaining interval (and times beyond it still raise). -/
theorem C45_uniform_partial (w : WellFormed s) (hu : Uniform s.knots)
    (h2 : 2 * s.order + 1 ≤ s.knots.length) {lo : K}
    (hlo : tMin (removeCurveSegment s) = .ok lo) (t : K) (ht : lo ≤ t) (d : Nat) :
    evalD (removeCurveSegment s) t d = evalD s t d := by
  have hk := w.order_ge; have hn := w.enough; have hc := w.count
  have hrm : removeCurveSegment s = { s with knots := s.knots.tail, coeffs := s.coeffs.tail } := by
    unfold removeCurveSegment
    rw [if_pos (by omega)]
  rw [hrm] at hlo ⊢
  have hmin := minimumKnotsRequired_eq s.order (by omega)
  have hlt : s.knots.tail.length = s.knots.length - 1 := by simp
  have hlc : s.coeffs.tail.length = s.coeffs.length - 1 := by simp
  have hlo' : lo = knotAt s.knots s.order := by
    unfold tMin at hlo
    simp only [hmin, hlt] at hlo
    rw [if_neg (by omega), knotAt_tail, show s.order - 1 + 1 = s.order by omega] at hlo
    cases hlo; rfl
  subst hlo'
  -- where the old spline locates the time
  have hge : knotAt s.knots (s.order - 1) ≤ t :=
    le_trans (w.sorted (s.order - 1) s.order (by omega) (by omega)) ht
  have h0 : knotAt s.knots 0 ≤ t := le_trans (w.sorted 0 s.order (by omega) (by omega)) ht
  have hub := upperBound_tail s.knots t h0 (by omega)
  -- the index of the new spline is one less
  have hidx : ∀ p, computeTIndex s t = .ok p → s.order ≤ p.2 ∧
      computeTIndex ({ s with knots := s.knots.tail, coeffs := s.coeffs.tail } : Spline K D) t =
        .ok (p.1, p.2 - 1) := by
    intro p hp
    obtain ⟨_, a1, a2, a3, a5⟩ := computeTIndex_ok w hp
    have hge2 : s.order ≤ p.2 := by
      rcases a5 with ⟨_, h6⟩ | ⟨_, h6, h7⟩
      · omega
      · by_contra hcon
        have : p.2 + 1 = s.order := by omega
        rw [this] at h7
        exact absurd h7 (not_lt.2 ht)
    refine ⟨hge2, ?_⟩
    have e1 : tMin ({ s with knots := s.knots.tail, coeffs := s.coeffs.tail } : Spline K D) =
        .ok (knotAt s.knots s.order) := hlo
    have e2 : tMax ({ s with knots := s.knots.tail, coeffs := s.coeffs.tail } : Spline K D) =
        .ok (knotAt s.knots (s.knots.length - s.order)) := by
      unfold tMax
      simp only [hmin, hlt]
      rw [if_neg (by omega), knotAt_tail,
        show s.knots.length - 1 - s.order + 1 = s.knots.length - s.order by omega]
    have hp' := hp
    unfold computeTIndex at hp ⊢
    rw [w.tMin_eq, w.tMax_eq] at hp
    rw [e1, e2]
    simp only [Out.ok_bind, if_neg (not_lt.2 ht), if_neg (not_lt.2 hge)] at hp ⊢
    by_cases hs : |knotAt s.knots (s.knots.length - s.order) - t| < snapTol
    · simp only [if_pos hs, lt_irrefl, if_false, if_true, hlt, knotAt_tail] at hp ⊢
      rw [if_neg (by omega)] at hp ⊢
      cases hp
      simp only
      rw [show s.knots.length - 1 - s.order + 1 = s.knots.length - s.order by omega,
        show s.knots.length - 1 - s.order - 1 + 1 = s.knots.length - s.order - 1 by omega]
      congr 2
      omega
    · simp only [if_neg hs, hlt, knotAt_tail] at hp ⊢
      by_cases hhi : knotAt s.knots (s.knots.length - s.order) < t
      · rw [if_pos hhi] at hp; cases hp
      · rw [if_neg hhi] at hp ⊢
        have hne : ¬ t = knotAt s.knots (s.knots.length - s.order) := by
          intro hc; apply hs; rw [← hc]; simpa using snapTol_pos
        simp only [if_neg hne] at hp ⊢
        rw [hub] at hp
        split at hp
        · cases hp
        · rename_i hcond
          push Not at hcond
          cases hp
          simp only at hge2 ⊢
          rw [if_neg (by omega)]
          rw [show upperBound s.knots.tail t + 1 - 1 = upperBound s.knots.tail t by omega,
            show upperBound s.knots.tail t - 1 + 1 = upperBound s.knots.tail t by omega]
  by_cases hacc : ∃ p, computeTIndex s t = .ok p
  · obtain ⟨p, hp⟩ := hacc
    obtain ⟨hp2, hnew⟩ := hidx p hp
    obtain ⟨_, a1, a2, a3, a5⟩ := computeTIndex_ok w hp
    rw [evalD_of w hp]
    -- evaluate the new spline by hand
    have hloc : locate ({ s with knots := s.knots.tail, coeffs := s.coeffs.tail } : Spline K D) t =
        .ok (normTime s t p.2, p.2 - 1, p.2 - s.order) := by
      unfold locate computeUAndTIndex
      rw [hnew]
      unfold normTime
      rw [← a3]
      simp only [Out.ok_bind, knotAt_tail, show p.2 - 1 + 1 = p.2 by omega]
      by_cases hpos : p.1 ≤ 0
      · simp only [if_pos hpos, Out.pure_eq, Out.ok_bind]
        rw [if_neg (by omega), show p.2 - 1 + 1 - s.order = p.2 - s.order by omega]
      · simp only [if_neg hpos, Out.pure_eq, Out.ok_bind]
        rw [if_neg (by omega), show p.2 - 1 + 1 - s.order = p.2 - s.order by omega]
    have hb : s.basis[p.2 - s.order]? = some (basisM (knotAt s.knots) s.order (p.2 - 1)) := by
      have := w.basis_get (idx := p.2 - 1) (by omega) (by omega)
      rwa [show p.2 - 1 + 1 - s.order = p.2 - s.order by omega] at this
    unfold evalD localBi
    rw [hloc]
    simp only [Out.ok_bind]
    rw [hb]
    simp only [Out.pure_eq, Out.ok_bind, combine, hlc]
    rw [if_pos (by omega)]
    simp only
    congr 1
    funext e
    apply sum_congr rfl
    intro c hcr
    have hcr : c < s.order := by simpa using hcr
    obtain ⟨a, h, hh, hτ⟩ := hu
    congr 1
    · congr 1
      have : s.coeffs.tail.getD (p.2 - s.order + c) 0 = s.coeffs.getD (p.2 - s.order + c + 1) 0 := by
        cases s.coeffs <;> simp
      rw [this, show p.2 + 1 - s.order + c = p.2 - s.order + c + 1 by omega]
    · unfold weights
      apply sum_congr rfl
      intro r _
      congr 1
      · have := basisM_uniform (knotAt s.knots) s.knots.length a h hτ s.order (p.2 - 1) (by omega)
          (by omega) r c hcr
        rw [← this, show p.2 - 1 + 1 = p.2 by omega]
      · unfold computeU
        simp only [knotAt_tail, show p.2 - 1 + 1 = p.2 by omega]
  · -- rejected by the old spline: beyond the end
    have hr : computeTIndex s t = .raise := by
      cases hx : computeTIndex s t with
      | ok p => exact absurd ⟨p, hx⟩ hacc
      | raise => rfl
      | ub => exact absurd hx (computeTIndex_ne_ub w t)
    have hnew : computeTIndex
        ({ s with knots := s.knots.tail, coeffs := s.coeffs.tail } : Spline K D) t = .raise := by
      have hns : ¬ Snapped s t := by
        intro h; exact hacc ⟨_, computeTIndex_snapped w hge h⟩
      have hgt : knotAt s.knots (s.knots.length - s.order) < t := by
        by_contra hcon
        exact hacc (accepted w w.tMin_eq w.tMax_eq hge (not_lt.1 hcon))
      have e2 : tMax ({ s with knots := s.knots.tail, coeffs := s.coeffs.tail } : Spline K D) =
          .ok (knotAt s.knots (s.knots.length - s.order)) := by
        unfold tMax
        simp only [hmin, hlt]
        rw [if_neg (by omega), knotAt_tail,
          show s.knots.length - 1 - s.order + 1 = s.knots.length - s.order by omega]
      unfold computeTIndex
      rw [hlo, e2]
      simp only [Out.ok_bind, if_neg (not_lt.2 ht)]
      unfold Snapped at hns
      rw [if_neg hns, if_pos hgt]
    rw [evalD_raise hr, evalD_raise hnew]

/-! ## C47 -/

/-- C47: from segments to knots and back, and the coefficient count either way. -/
theorem C47_counts (order segs : Nat) (ho : 2 ≤ order) (hs : 1 ≤ segs) :
    numValidTimeSegments order (numKnotsRequired order segs) = segs ∧
    numCoefficientsRequired order segs + order = numKnotsRequired order segs ∧
    minimumKnotsRequired order ≤ numKnotsRequired order segs := by
  unfold minimumKnotsRequired numKnotsRequired numCoefficientsRequired numValidTimeSegments
  omega

/-- C47: from knots to segments and back. -/
theorem C47_counts_inverse (order knots : Nat) (ho : 2 ≤ order)
    (hk : minimumKnotsRequired order ≤ knots) :
    numKnotsRequired order (numValidTimeSegments order knots) = knots ∧
    1 ≤ numValidTimeSegments order knots ∧
    (∀ k', k' < minimumKnotsRequired order → numValidTimeSegments order k' = 0) := by
  unfold minimumKnotsRequired numKnotsRequired numCoefficientsRequired numValidTimeSegments at *
  refine ⟨by omega, by omega, fun k' h => by omega⟩

/-! ## Witnesses over ℚ -/

/-- An order-3 spline with non-uniform knots, as a call of the interface would build it. -/
def exKnots : List ℚ := [0, 0, 0, 1, 3, 4, 4, 5]
def exCoeffs : List (Fin 1 → ℚ) := [fun _ => 1, fun _ => 2, fun _ => -1, fun _ => 5, fun _ => 7]
def exSpline : Spline ℚ 1 := ⟨3, exKnots, exCoeffs, initBasis 3 exKnots⟩

theorem exWF : WellFormed exSpline where
  order_ge := by decide
  enough := by decide
  count := by decide
  basis_eq := rfl
  sorted := (nondecreasing_iff _).1 (by unfold Nondecreasing; decide +kernel)

/-- The hypotheses of C41, C42 and C43 are met at an interior time and the last segment is proper. -/
example : tMin exSpline = .ok 0 ∧ tMax exSpline = .ok 4 ∧ Bracketed exSpline (5 / 2) ∧
    Regular exSpline 4 ∧
    knotAt exSpline.knots (exSpline.knots.length - exSpline.order - 1) <
      knotAt exSpline.knots (exSpline.knots.length - exSpline.order) := by
  refine ⟨by decide +kernel, by decide +kernel, Or.inl ?_, Or.inr ?_, ?_⟩
  · unfold Snapped; decide +kernel
  · decide +kernel
  · decide +kernel

/-- `setKnotsAndCoefficients` with an equal old length is reachable. -/
example : ∃ s1, setKnotsAndCoefficients (D := 1) (⟨2, [], [], []⟩ : Spline ℚ 1) [0, 1, 2, 3]
    [fun _ => 1, fun _ => 2] = .ok s1 ∧ s1.knots.length = 4 ∧
    ∃ s2, setKnotsAndCoefficients s1 [0, 1, 1, 3] [fun _ => 1, fun _ => 2] = .ok s2 := by
  refine ⟨_, by rfl, by rfl, _, by rfl⟩

/-- Hypotheses of C45 are met. -/
def uniKnots : List ℚ := [0, 1, 2, 3, 4, 5]
def uniSpline : Spline ℚ 1 :=
  ⟨2, uniKnots, [fun _ => 1, fun _ => 2, fun _ => 0, fun _ => 5], initBasis 2 uniKnots⟩

example : WellFormed uniSpline ∧ Uniform uniSpline.knots ∧
    2 * uniSpline.order + 1 ≤ uniSpline.knots.length ∧ tMin (removeCurveSegment uniSpline) = .ok 2 := by
  refine ⟨⟨by decide, by decide, by decide, rfl, ?_⟩, ⟨0, 1, by norm_num, ?_⟩, by decide, by decide +kernel⟩
  · exact (nondecreasing_iff _).1 (by unfold Nondecreasing; decide +kernel)
  · intro j hj
    have hj : j ∈ List.range 6 := List.mem_range.2 hj
    revert j
    decide +kernel

/-! ## Counterexamples -/

/-- Repeated knot at the end of the valid interval, all coefficients 1. -/
def flatKnots : List ℚ := [0, 0, 1, 2, 2, 3]
def flatSpline : Spline ℚ 1 :=
  ⟨2, flatKnots, [fun _ => 1, fun _ => 1, fun _ => 1, fun _ => 1], initBasis 2 flatKnots⟩

/-- C41 is false: at `t_max` the constant spline `1` evaluates to `0`. -/
theorem C41_counterexample : WellFormed flatSpline ∧ tMax flatSpline = .ok 2 ∧
    (∃ b, localBi flatSpline 2 0 = .ok b ∧ ∑ c ∈ range 2, b c = 0) ∧
    ∃ v, evalD flatSpline 2 0 = .ok v ∧ v 0 = 0 := by
  refine ⟨⟨by decide, by decide, by decide, rfl, ?_⟩, by decide +kernel, ?_, ?_⟩
  · exact (nondecreasing_iff _).1 (by unfold Nondecreasing; decide +kernel)
  · obtain ⟨b, h1, h2⟩ := Out.okAnd_spec (x := localBi flatSpline 2 0)
      (P := fun b => decide (∑ c ∈ range 2, b c = 0)) (by decide +kernel)
    exact ⟨b, h1, of_decide_eq_true h2⟩
  · obtain ⟨b, h1, h2⟩ := Out.okAnd_spec (x := evalD flatSpline 2 0)
      (P := fun v => decide (v 0 = 0)) (by decide +kernel)
    exact ⟨b, h1, of_decide_eq_true h2⟩

/-- C42 is false in the same situation: neither the right- nor the left-continuous B-spline is 0. -/
theorem C42_counterexample : WellFormed flatSpline ∧
    (∃ v, evalD flatSpline 2 0 = .ok v ∧ v 0 = 0) ∧
    ∑ m ∈ range 4, bsplineNLeft (knotAt flatKnots) 2 m 2 * 1 = 1 ∧
    ∑ m ∈ range 4, bsplineN (knotAt flatKnots) 2 m 2 * 1 = 1 := by
  refine ⟨C41_counterexample.1, C41_counterexample.2.2.2, by decide +kernel, by decide +kernel⟩

/-- A last segment shorter than the tolerance. -/
def tinyKnots : List ℚ := [0, 0, 1, 1 + 1 / 100000000000, 2]
def tinySpline : Spline ℚ 1 :=
  ⟨2, tinyKnots, [fun _ => 1, fun _ => 1, fun _ => 1], initBasis 2 tinyKnots⟩

/-- C43 is false: a time just before the last, very short segment is located in it, although its
knots do not bracket the time. -/
theorem C43_counterexample : WellFormed tinySpline ∧
    tMin tinySpline = .ok 0 ∧ tMax tinySpline = .ok (1 + 1 / 100000000000) ∧
    (∃ w, computeTIndex tinySpline (1 - 1 / 100000000000) = .ok (w, 2)) ∧
    ¬ (knotAt tinyKnots 2 ≤ 1 - 1 / 100000000000) := by
  refine ⟨⟨by decide, by decide, by decide, rfl, ?_⟩, by decide +kernel, by decide +kernel,
    ⟨1 / 100000000000, by decide +kernel⟩, by decide +kernel⟩
  exact (nondecreasing_iff _).1 (by unfold Nondecreasing; decide +kernel)

/-- C44 is false: on a fresh spline a decreasing knot sequence is accepted, and on a spline with
more knots than the new sequence a perfectly good sequence is undefined behaviour. -/
theorem C44_counterexample :
    (∃ s', setKnotsAndCoefficients (⟨2, [], [], []⟩ : Spline ℚ 1) [3, 2, 1, 0]
      [fun _ => 1, fun _ => 2] = .ok s' ∧ ¬ Nondecreasing s'.knots) ∧
    setKnotsAndCoefficients uniSpline [0, 1, 2, 3] [fun _ => 1, fun _ => 2] = .ub := by
  refine ⟨⟨_, rfl, ?_⟩, ?_⟩
  · unfold Nondecreasing; decide +kernel
  · rfl

/-- Order 3, knots that are not uniform. -/
def warpKnots : List ℚ := [0, 1, 2, 3, 5, 6, 7]
def warpSpline : Spline ℚ 1 :=
  ⟨3, warpKnots, [fun _ => 1, fun _ => 0, fun _ => 0, fun _ => 4], initBasis 3 warpKnots⟩

/-- C45 is false: at a time in the remaining interval the value changes. -/
theorem C45_counterexample : WellFormed warpSpline ∧
    tMin (removeCurveSegment warpSpline) = .ok 3 ∧ tMax (removeCurveSegment warpSpline) = .ok 5 ∧
    ∃ v v', evalD warpSpline 4 0 = .ok v ∧ evalD (removeCurveSegment warpSpline) 4 0 = .ok v' ∧
      v 0 ≠ v' 0 := by
  refine ⟨⟨by decide, by decide, by decide, rfl, ?_⟩, by decide +kernel, by decide +kernel,
    ?_⟩
  · exact (nondecreasing_iff _).1 (by unfold Nondecreasing; decide +kernel)
  · obtain ⟨v, h1, h2⟩ := Out.okAnd_spec (x := evalD warpSpline 4 0)
      (P := fun v => (evalD (removeCurveSegment warpSpline) 4 0).okAnd
        fun v' => decide (v 0 ≠ v' 0)) (by decide +kernel)
    obtain ⟨v', h3, h4⟩ := Out.okAnd_spec h2
    exact ⟨v, v', h1, h3, of_decide_eq_true h4⟩

end Kalibr.BSpline
