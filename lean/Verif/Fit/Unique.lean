import Verif.Fit.Marsden
import Verif.Fit.Coeffs
import Mathlib.Order.Interval.Set.Infinite

/-! C111: the coefficients are determined by the curve. -/

namespace Kalibr.Fit

open BSpline Finset

variable {K : Type} [Field K] [LinearOrder K] [IsStrictOrderedRing K] {D : Nat} {s : Spline K D}

/-- A sum of powers that vanishes on the open unit interval has zero coefficients. -/
theorem poly_zero {n : Nat} {b : Nat → K} (h : ∀ u : K, 0 < u → u < 1 → ∑ r ∈ range n, u ^ r * b r = 0) :
    ∀ r, r < n → b r = 0 := by
  open Polynomial in
  have hp : (∑ r ∈ range n, Polynomial.C (b r) * Polynomial.X ^ r : Polynomial K) = 0 := by
    apply Polynomial.eq_zero_of_infinite_isRoot
    apply Set.Infinite.mono _ (Set.Ioo_infinite (zero_lt_one : (0 : K) < 1))
    intro u hu
    have := h u hu.1 hu.2
    simp only [Set.mem_setOf_eq, Polynomial.IsRoot.def, Polynomial.eval_finsetSum, Polynomial.eval_mul,
      Polynomial.eval_C, Polynomial.eval_pow, Polynomial.eval_X]
    rw [← this]
    exact sum_congr rfl fun r _ => mul_comm _ _
  intro r hr
  have := congrArg (fun q => Polynomial.coeff q r) hp
  simp only [Polynomial.finsetSum_coeff, Polynomial.coeff_C_mul, Polynomial.coeff_X_pow,
    Polynomial.coeff_zero] at this
  rw [sum_eq_single r] at this
  · simpa using this
  · intro c _ hc
    rw [if_neg (fun h => hc h.symm), mul_zero]
  · intro h
    exact absurd (mem_range.2 hr) h

/-- The polynomial of the weights, by powers. -/
theorem sum_bw (τ : Nat → K) (k i : Nat) (a : Nat → K) (u : K) :
    ∑ c ∈ range k, a c * bw τ k i c u = ∑ r ∈ range k, u ^ r * ∑ c ∈ range k, basisM τ k i r c * a c := by
  unfold bw
  simp only [mul_sum]
  rw [sum_comm]
  exact sum_congr rfl fun r _ => sum_congr rfl fun c _ => by ring

/-- The segment in which a time strictly inside a segment of positive length is found, when the time is not
snapped to the end or the segment is the last one. -/
theorem locate_inside (w : WellFormed s) {i : Nat} (h1 : s.order - 1 ≤ i) (h2 : i < s.knots.length - s.order)
    {t : K} (ha : knotAt s.knots i ≤ t) (hb : t < knotAt s.knots (i + 1))
    (hns : i + 1 = s.knots.length - s.order ∨ ¬ Snapped s t) :
    computeTIndex s t = .ok (knotAt s.knots (i + 1) - knotAt s.knots i, i) := by
  have hk := w.order_ge; have hn := w.enough
  have hlo : knotAt s.knots (s.order - 1) ≤ t := le_trans (w.sorted _ _ h1 (by omega)) ha
  have hhi : t ≤ knotAt s.knots (s.knots.length - s.order) :=
    le_trans hb.le (w.sorted _ _ (by omega) (by omega))
  obtain ⟨p, hp⟩ := accepted w w.tMin_eq w.tMax_eq hlo hhi
  obtain ⟨_, a1, a2, a3, a4⟩ := computeTIndex_ok w hp
  have hidx : p.2 = i := by
    rcases a4 with ⟨h, h'⟩ | ⟨h, h', h''⟩
    · rcases hns with hns | hns
      · omega
      · exact absurd h hns
    · by_contra hne
      rcases Nat.lt_or_ge p.2 i with hlt | hge
      · have := w.sorted (p.2 + 1) i (by omega) (by omega)
        linarith
      · have := w.sorted (i + 1) p.2 (by omega) (by omega)
        linarith
  rw [hp, show p = (p.1, p.2) from rfl, a3, hidx]

/-- The knots of the valid time are distinct, and the last segment is longer than the tolerance within which
times are snapped to the end. -/
structure Resolvable (s : Spline K D) : Prop where
  step : ∀ i, s.order - 1 ≤ i → i < s.knots.length - s.order → knotAt s.knots i < knotAt s.knots (i + 1)
  last : 1 / 10 ^ 10 ≤ knotAt s.knots (s.knots.length - s.order) - knotAt s.knots (s.knots.length - s.order - 1)

/-- **C111**.  For every spline whose valid knots are distinct, and whose last segment is at least `1e-10` long,
the values at the valid times determine the coefficients: two coefficient matrices of the same size whose
curves agree at all valid times are equal. -/
theorem C111_determined (w : WellFormed s) (r : Resolvable s) {lo hi : K} (hlo : tMin s = .ok lo)
    (hhi : tMax s = .ok hi) (c : List (Fin D → K)) (hc : c.length = s.coeffs.length)
    (h : ∀ t, lo ≤ t → t ≤ hi → evalD { s with coeffs := c } t 0 = evalD s t 0) : c = s.coeffs := by
  have hk := w.order_ge; have hn := w.enough; have hcn := w.count
  rw [w.tMin_eq] at hlo; rw [w.tMax_eq] at hhi
  cases hlo; cases hhi
  have w' : WellFormed ({ s with coeffs := c } : Spline K D) :=
    ⟨w.order_ge, w.enough, by rw [hc]; exact w.count, w.basis_eq, w.sorted⟩
  have key : ∀ i, s.order - 1 ≤ i → i < s.knots.length - s.order → ∀ j, j < s.order →
      c.getD (i + 1 - s.order + j) 0 = s.coeffs.getD (i + 1 - s.order + j) 0 := by
    intro i h1 h2 j hj
    have hst := r.step i h1 h2
    funext e
    obtain ⟨k, hkk⟩ : ∃ k, s.order = k + 1 := ⟨s.order - 1, by omega⟩
    have hz : ∀ j, j < k + 1 → c.getD (i + 1 - s.order + j) 0 e - s.coeffs.getD (i + 1 - s.order + j) 0 e = 0 := by
      apply bw_independent (knotAt s.knots) s.knots.length i k w.sorted hst (by omega) (by omega)
        (fun j => c.getD (i + 1 - s.order + j) 0 e - s.coeffs.getD (i + 1 - s.order + j) 0 e)
      apply poly_zero
      intro u hu0 hu1
      rw [← sum_bw]
      set t := knotAt s.knots i + u * (knotAt s.knots (i + 1) - knotAt s.knots i) with ht
      have hd : 0 < knotAt s.knots (i + 1) - knotAt s.knots i := by linarith
      have ha : knotAt s.knots i ≤ t := by rw [ht]; nlinarith
      have hb : t < knotAt s.knots (i + 1) := by rw [ht]; nlinarith
      have hns : i + 1 = s.knots.length - s.order ∨ ¬ Snapped s t := by
        by_cases hl : i + 1 = s.knots.length - s.order
        · exact Or.inl hl
        · right
          intro hsn
          have := w.sorted (i + 1) (s.knots.length - s.order - 1) (by omega) (by omega)
          unfold Snapped snapTol at hsn
          have h3 := (abs_lt.1 hsn).2
          have h4 := r.last
          have e10 : (1 / 10 ^ 10 : K) = 1 / 10000000000 := by norm_num
          rw [e10] at h4
          linarith
      have hp := locate_inside w h1 h2 ha hb hns
      have hp' : computeTIndex ({ s with coeffs := c } : Spline K D) t =
        .ok (knotAt s.knots (i + 1) - knotAt s.knots i, i) := hp
      have hv := h t (le_trans (w.sorted _ _ h1 (by omega)) ha)
        (le_trans hb.le (w.sorted _ _ (by omega) (by omega)))
      rw [evalD_of w hp, evalD_of w' hp'] at hv
      have hv := congrFun (Out.ok.inj hv) e
      simp only at hv
      have hu : normTime ({ s with coeffs := c } : Spline K D) t i = u := by
        unfold normTime
        simp only
        rw [if_neg (not_le.2 hd), ht]
        field_simp
        ring
      have hu' : normTime s t i = u := hu
      rw [hu, hu'] at hv
      simp only [weights_eq_bw _ _ _ _ _ hst] at hv
      rw [← sub_eq_zero, ← sum_sub_distrib] at hv
      rw [← hv, hkk]
      exact sum_congr rfl fun j _ => by ring
    exact sub_eq_zero.1 (hz j (by omega))
  apply List.ext_getElem hc
  intro m hm hm'
  have hg : c.getD m 0 = s.coeffs.getD m 0 := by
    rcases Nat.lt_or_ge m (s.knots.length - 2 * s.order) with hlt | hge
    · have := key (m + s.order - 1) (by omega) (by omega) 0 (by omega)
      rwa [show m + s.order - 1 + 1 - s.order + 0 = m by omega] at this
    · have := key (s.knots.length - s.order - 1) (by omega) (by omega) (m - (s.knots.length - 2 * s.order))
        (by omega)
      rwa [show s.knots.length - s.order - 1 + 1 - s.order + (m - (s.knots.length - 2 * s.order)) = m by omega]
        at this
  simpa [List.getD_eq_getElem?_getD, hm, hm'] using hg

/-- **C111** (every polynomial).  On every segment of positive length, every polynomial of degree less than the
order is the curve of exactly one choice of the coefficients of the segment: for every coefficients `b` of
powers of the normalised time there are unique `order` numbers `a` for which the weighted sum is that
polynomial. -/
theorem C111_complete (w : WellFormed s) {i : Nat} (h1 : s.order - 1 ≤ i) (h2 : i < s.knots.length - s.order)
    (hst : knotAt s.knots i < knotAt s.knots (i + 1)) (b : Nat → K) :
    (∃ a : Nat → K, ∀ u, ∑ c ∈ range s.order, a c * bw (knotAt s.knots) s.order i c u =
      ∑ r ∈ range s.order, u ^ r * b r) ∧
    ∀ a a' : Nat → K, (∀ u, 0 < u → u < 1 → ∑ c ∈ range s.order, a c * bw (knotAt s.knots) s.order i c u =
      ∑ c ∈ range s.order, a' c * bw (knotAt s.knots) s.order i c u) → ∀ c, c < s.order → a c = a' c := by
  have hk := w.order_ge; have hn := w.enough
  obtain ⟨k, hkk⟩ : ∃ k, s.order = k + 1 := ⟨s.order - 1, by omega⟩
  constructor
  · obtain ⟨a, ha⟩ := bw_surjective (knotAt s.knots) s.knots.length i k w.sorted hst (by omega) (by omega) b
    refine ⟨a, fun u => ?_⟩
    rw [sum_bw, hkk]
    exact sum_congr rfl fun r hr => by rw [ha r (by simpa using hr)]
  · intro a a' h
    rw [hkk] at h ⊢
    have := bw_independent (knotAt s.knots) s.knots.length i k w.sorted hst (by omega) (by omega)
      (fun c => a c - a' c) (by
        apply poly_zero
        intro u hu0 hu1
        rw [← sum_bw]
        simp only [sub_mul, sum_sub_distrib]
        rw [h u hu0 hu1, sub_self])
    intro c hc
    exact sub_eq_zero.1 (this c hc)

/-- A spline meets the hypotheses. -/
theorem uniSpline_ok : WellFormed uniSpline ∧ Resolvable uniSpline := by
  refine ⟨⟨by decide, by decide, by decide, rfl, ?_⟩, ?_, ?_⟩
  · apply adjacent_sorted
    decide +kernel
  · have e1 : uniSpline.order = 2 := by rfl
    have e2 : uniSpline.knots.length = 6 := by rfl
    rw [e1, e2]
    intro i h1 h2
    have : i = 1 ∨ i = 2 ∨ i = 3 := by omega
    rcases this with rfl | rfl | rfl <;> decide +kernel
  · have e1 : uniSpline.order = 2 := by rfl
    have e2 : uniSpline.knots.length = 6 := by rfl
    rw [e1, e2]
    decide +kernel

/-- The hypothesis on the knots is needed: at a repeated knot a coefficient can act on an empty segment only,
and then no value depends on it. -/
theorem C111_repeated_counterexample : ∃ s : Spline ℚ 1, WellFormed s ∧ tMin s = .ok 0 ∧ tMax s = .ok 2 ∧
    ∃ c : List (Fin 1 → ℚ), c.length = s.coeffs.length ∧ c ≠ s.coeffs ∧
    ∀ t, 0 ≤ t → t ≤ 2 → evalD { s with coeffs := c } t 0 = evalD s t 0 := by
  have w := C41_counterexample.1
  have hlo : tMin flatSpline = .ok 0 := by decide +kernel
  have hhi : tMax flatSpline = .ok 2 := by decide +kernel
  refine ⟨flatSpline, w, hlo, hhi, [fun _ => 1, fun _ => 1, fun _ => 1, fun _ => 7], rfl, ?_, ?_⟩
  · intro h
    have := congrArg (fun l => l.getD 3 0 0) h
    simp [flatSpline] at this
  · intro t h1 h2
    obtain ⟨p, hp⟩ := accepted w hlo hhi h1 h2
    obtain ⟨_, a1, a2, _, _⟩ := computeTIndex_ok w hp
    set c : List (Fin 1 → ℚ) := [fun _ => 1, fun _ => 1, fun _ => 1, fun _ => 7] with hc
    have w' : WellFormed ({ flatSpline with coeffs := c } : Spline ℚ 1) :=
      ⟨w.order_ge, w.enough, w.count, w.basis_eq, w.sorted⟩
    have hp' : computeTIndex ({ flatSpline with coeffs := c } : Spline ℚ 1) t = .ok p := hp
    rw [evalD_of w hp, evalD_of w' hp']
    congr 1
    funext e
    apply sum_congr rfl
    intro j hj
    have e1 : flatSpline.order = 2 := rfl
    have e2 : flatSpline.knots.length = 6 := rfl
    rw [e1] at a1 a2
    rw [e2] at a2
    have hj : j < 2 := by simpa [e1] using hj
    have hcase : p.2 = 1 ∨ p.2 = 2 ∨ p.2 = 3 := by omega
    rcases hcase with h | h | h
    · have : j = 0 ∨ j = 1 := by omega
      rcases this with rfl | rfl <;> simp [h, hc, flatSpline, normTime]
    · have : j = 0 ∨ j = 1 := by omega
      rcases this with rfl | rfl <;> simp [h, hc, flatSpline, normTime]
    · have hz : ∀ (q : Spline ℚ 1) (u : ℚ), q.knots = flatKnots → weights 2 (basisM (knotAt q.knots) 2 3)
          (computeU (knotAt q.knots) 2 u 3 0) j = 0 := by
        intro q u hq
        unfold weights computeU
        have : knotAt q.knots (3 + 1) - knotAt q.knots 3 = 0 := by rw [hq]; decide +kernel
        simp [this]
      rw [h]
      have g1 := hz { flatSpline with coeffs := c } (normTime ({ flatSpline with coeffs := c } : Spline ℚ 1) t 3) rfl
      have g2 := hz flatSpline (normTime flatSpline t 3) rfl
      rw [show ({ flatSpline with coeffs := c } : Spline ℚ 1).order = 2 from rfl, g1, g2]
      simp

end Kalibr.Fit
