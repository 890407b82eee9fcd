import Verif.Motion.Algebra
import Verif.Motion.Spec

/-! The segment matrices are integrals. -/

set_option linter.unusedSectionVars false

namespace Kalibr.Motion

open BSpline Sparse Finset

variable {D : Nat} {s : Spline ℝ D}

/-- The `n`-th derivative of the vector of powers on segment `i` at time `t`, entry `r`. -/
noncomputable def uAt (s : Spline ℝ D) (i n : Nat) (t : ℝ) (r : Nat) : ℝ :=
  computeU (knotAt s.knots) s.order
    ((t - knotAt s.knots i) / (knotAt s.knots (i + 1) - knotAt s.knots i)) i n r

theorem uAt_continuous (i n r : Nat) : Continuous fun t => uAt s i n t r := by
  unfold uAt computeU
  dsimp only
  split_ifs <;> fun_prop

theorem dmul_rec (r n : Nat) : dmul (r + 1) (n + 1) = (r + 1) * dmul r n := by
  cases n with
  | zero => simp [dmul]
  | succ n => simp [dmul]

/-- Differentiation of the powers is multiplication with the differentiation matrix. -/
theorem uAt_succ (i n : Nat) (t : ℝ) {r : Nat} (hr : r < s.order) :
    uAt s i (n + 1) t r = ∑ a ∈ range s.order, difMat s i a r * uAt s i n t a := by
  cases r with
  | zero =>
    rw [sum_eq_zero]
    · simp [uAt, computeU]
    · intro a _
      simp [difMat]
  | succ r =>
    rw [sum_eq_single r]
    · unfold uAt computeU difMat
      by_cases hp : 0 < knotAt s.knots (i + 1) - knotAt s.knots i
      · simp only [if_pos hp, hr, and_true, if_true, dmul_rec, show r < s.order by omega,
          Nat.add_le_add_iff_right]
        by_cases hn : n ≤ r
        · rw [if_pos hn, if_pos hn, show r + 1 - (n + 1) = r - n by omega]
          push_cast
          rw [pow_succ]
          field_simp
        · rw [if_neg hn, if_neg hn, mul_zero]
      · simp only [if_neg hp, zero_mul, mul_zero, ite_self]
    · intro a _ ha
      rw [difMat, if_neg (by omega), zero_mul]
    · intro h
      exact absurd (mem_range.2 (by omega)) h

theorem integral_pow {t0 t1 : ℝ} (h : t0 < t1) (m : Nat) :
    ∫ t in t0..t1, ((t - t0) / (t1 - t0)) ^ m = 1 / ((m : ℝ) + 1) * (t1 - t0) := by
  have hw : t1 - t0 ≠ 0 := by linarith
  have hm : (m : ℝ) + 1 ≠ 0 := by positivity
  have hd : ∀ t ∈ Set.uIcc t0 t1, HasDerivAt
      (fun t => (t1 - t0) / ((m : ℝ) + 1) * ((t - t0) / (t1 - t0)) ^ (m + 1)) (((t - t0) / (t1 - t0)) ^ m) t := by
    intro t _
    have hlin : HasDerivAt (fun x => (x - t0) / (t1 - t0)) (1 / (t1 - t0)) t :=
      ((hasDerivAt_id t).sub_const t0).div_const _
    refine ((hlin.fun_pow (m + 1)).const_mul ((t1 - t0) / ((m : ℝ) + 1))).congr_deriv ?_
    push_cast
    field_simp
  rw [intervalIntegral.integral_eq_sub_of_hasDerivAt hd
    ((by fun_prop : Continuous fun t => ((t - t0) / (t1 - t0)) ^ m).intervalIntegrable _ _)]
  rw [div_self hw, sub_self, zero_div]
  simp
  field_simp

/-- `V` after `n` rounds of the loop: the integrals of the products of two entries. -/
theorem derive_eq (w : WellFormed s) {i : Nat} (hi : i + 1 < s.knots.length) (n : Nat) {r q : Nat}
    (hr : r < s.order) (hq : q < s.order) :
    derive s.order (difMat s i) n (powMat s i) r q =
      ∫ t in (knotAt s.knots i)..(knotAt s.knots (i + 1)), uAt s i n t r * uAt s i n t q := by
  have step : ∀ (m k : Nat) (V : Nat → Nat → ℝ),
      (∀ r q, r < s.order → q < s.order → V r q =
        ∫ t in (knotAt s.knots i)..(knotAt s.knots (i + 1)), uAt s i k t r * uAt s i k t q) →
      ∀ r q, r < s.order → q < s.order → derive s.order (difMat s i) m V r q =
        ∫ t in (knotAt s.knots i)..(knotAt s.knots (i + 1)), uAt s i (k + m) t r * uAt s i (k + m) t q := by
    intro m
    induction m with
    | zero => intro k V hV r q hr hq; exact hV r q hr hq
    | succ m ih =>
      intro k V hV r q hr hq
      rw [derive, ih (k + 1) _ _ r q hr hq, show k + (m + 1) = k + 1 + m by omega]
      intro r q hr hq
      have e : ∀ t, uAt s i (k + 1) t r * uAt s i (k + 1) t q = ∑ b ∈ range s.order, ∑ a ∈ range s.order,
          (difMat s i a r * difMat s i b q) * (uAt s i k t a * uAt s i k t b) := by
        intro t
        rw [uAt_succ i k t hr, uAt_succ i k t hq, sum_mul_sum, sum_comm]
        refine sum_congr rfl fun b _ => sum_congr rfl fun a _ => ?_
        ring
      simp only [e]
      have hc : ∀ a b, Continuous fun t => uAt s i k t a * uAt s i k t b := fun a b =>
        (uAt_continuous i k a).mul (uAt_continuous i k b)
      rw [intervalIntegral.integral_finsetSum]
      · simp only [mmul, tr, sum_mul]
        refine sum_congr rfl fun b hb => ?_
        rw [intervalIntegral.integral_finsetSum]
        · refine sum_congr rfl fun a ha => ?_
          rw [intervalIntegral.integral_const_mul, ← hV a b (mem_range.1 ha) (mem_range.1 hb)]
          ring
        · intro a _
          exact ((hc a b).const_mul _).intervalIntegrable _ _
      · intro b _
        exact (continuous_finsetSum _ fun a _ => (hc a b).const_mul _).intervalIntegrable _ _
  have := step n 0 (powMat s i) ?_ r q hr hq
  · rwa [zero_add] at this
  · intro r q hr hq
    have hle := w.sorted i (i + 1) (by omega) hi
    rcases lt_or_eq_of_le hle with hlt | heq
    · have e : ∀ t, uAt s i 0 t r * uAt s i 0 t q =
          ((t - knotAt s.knots i) / (knotAt s.knots (i + 1) - knotAt s.knots i)) ^ (r + q) := by
        intro t
        have hp : 0 < knotAt s.knots (i + 1) - knotAt s.knots i := by linarith
        simp only [uAt, computeU, if_pos hp, hr, hq, Nat.zero_le, true_and, if_true, dmul, pow_add]
        simp
      simp only [e]
      rw [integral_pow hlt, powMat]
    · rw [← heq, intervalIntegral.integral_same, powMat, ← heq]
      ring

/-- The `n`-th derivative of the polynomial of segment `i`. -/
noncomputable def segD (s : Spline ℝ D) (e : Fin D) (i n : Nat) (t : ℝ) : ℝ :=
  ∑ c ∈ range s.order, (s.coeffs.getD (i + 1 - s.order + c) 0) e *
    weights s.order (basisM (knotAt s.knots) s.order i) (uAt s i n t) c

theorem segD_continuous (e : Fin D) (i n : Nat) : Continuous (segD s e i n) := by
  unfold segD weights
  exact continuous_finsetSum _ fun c _ => (continuous_finsetSum _ fun r _ =>
    (uAt_continuous i n r).const_mul _).const_mul _

theorem segD_hasDerivAt (e : Fin D) {i : Nat} (n : Nat) (t : ℝ)
    (h : knotAt s.knots i < knotAt s.knots (i + 1)) :
    HasDerivAt (segD s e i n) (segD s e i (n + 1) t) t := by
  unfold segD weights
  refine HasDerivAt.fun_sum fun c _ => HasDerivAt.const_mul _ (HasDerivAt.fun_sum fun r _ =>
    HasDerivAt.const_mul _ ?_)
  exact computeU_hasDerivAt _ _ _ _ _ _ h

theorem curve_eq_segD (w : WellFormed s) (e : Fin D) {i : Nat} (h1 : s.order - 1 ≤ i)
    (h2 : i < s.knots.length - s.order) {t : ℝ} (ht : knotAt s.knots i < t)
    (ht' : t < knotAt s.knots (i + 1)) : curve s e t = segD s e i 0 t := by
  rw [curve_eq_segPoly w e h1 h2 ht.le ht']
  unfold segPoly segD
  refine sum_congr rfl fun c _ => ?_
  unfold uAt
  rw [weights_eq_bw _ _ _ _ _ (by linarith)]

/-- Inside a segment, the derivatives of the curve are those of its polynomial. -/
theorem iteratedDeriv_curve (w : WellFormed s) (e : Fin D) {i : Nat} (h1 : s.order - 1 ≤ i)
    (h2 : i < s.knots.length - s.order) (n : Nat) {t : ℝ} (ht : knotAt s.knots i < t)
    (ht' : t < knotAt s.knots (i + 1)) : iteratedDeriv n (curve s e) t = segD s e i n t := by
  induction n generalizing t with
  | zero => rw [iteratedDeriv_zero]; exact curve_eq_segD w e h1 h2 ht ht'
  | succ n ih =>
    rw [iteratedDeriv_succ]
    have : iteratedDeriv n (curve s e) =ᶠ[nhds t] segD s e i n := by
      filter_upwards [lt_mem_nhds ht, gt_mem_nhds ht'] with x a b
      exact ih a b
    rw [this.deriv_eq]
    exact (segD_hasDerivAt e n t (by linarith)).deriv

/-- The weighted squared derivative of the polynomial of a segment. -/
noncomputable def segDensity (s : Spline ℝ D) (W : Mat ℝ) (i n : Nat) (t : ℝ) : ℝ :=
  ∑ d : Fin D, ∑ e : Fin D, segD s d i n t * W.get d e * segD s e i n t

theorem segDensity_continuous (W : Mat ℝ) (i n : Nat) : Continuous (segDensity s W i n) := by
  unfold segDensity
  exact continuous_finsetSum _ fun d _ => continuous_finsetSum _ fun e _ =>
    ((segD_continuous d i n).mul continuous_const).mul (segD_continuous e i n)

theorem stacked_lin (c : List (Fin D → ℝ)) (m : Nat) (d : Fin D) : stacked c (m * D + d) = c.getD m 0 d := by
  have := d.isLt
  have h : (m * D + d) % D < D := Nat.mod_lt _ (by omega)
  rw [stacked, dif_pos h]
  rw [div_lin d.isLt]
  exact congrArg _ (Fin.ext (mod_lin d.isLt m))

/-- A segment polynomial in terms of the polynomial coefficients. -/
theorem segD_eq_poly (e : Fin D) {seg : Nat} (hk : 1 ≤ s.order) (n : Nat) (t : ℝ) :
    segD s e (seg + s.order - 1) n t = ∑ r ∈ range s.order,
      polyCoef D s.order (basisM (knotAt s.knots) s.order (seg + s.order - 1))
        (window D seg (stacked s.coeffs)) e r * uAt s (seg + s.order - 1) n t r := by
  unfold segD weights polyCoef
  simp only [mul_sum, sum_mul]
  rw [sum_comm]
  refine sum_congr rfl fun r _ => sum_congr rfl fun c _ => ?_
  rw [window, show seg * D + (c * D + e) = (seg + c) * D + e by ring, stacked_lin,
    show seg + s.order - 1 + 1 - s.order + c = seg + c by omega]
  ring

/-- The quadratic form of a segment matrix is the integral over the segment. -/
theorem quad_segMat (w : WellFormed s) (W : Mat ℝ) (n : Nat) {seg : Nat}
    (h : seg < numValidTimeSegments s.order s.knots.length) :
    quad (D * s.order) (segMat s W.get seg n) (window D seg (stacked s.coeffs)) =
      ∫ t in (knotAt s.knots (seg + s.order - 1))..(knotAt s.knots (seg + s.order - 1 + 1)),
        segDensity s W (seg + s.order - 1) n t := by
  have hk := w.order_ge; have hn := w.enough
  unfold numValidTimeSegments at h
  set i := seg + s.order - 1 with hi
  set P := polyCoef D s.order (basisM (knotAt s.knots) s.order i) (window D seg (stacked s.coeffs)) with hP
  have e : ∀ t, segDensity s W i n t = ∑ d ∈ range D, ∑ r ∈ range s.order, ∑ e ∈ range D, ∑ q ∈ range s.order,
      (P d r * W.get d e * P e q) * (uAt s i n t r * uAt s i n t q) := by
    intro t
    unfold segDensity
    simp only [hi, segD_eq_poly (s := s) _ (show 1 ≤ s.order by omega)]
    rw [← hi, ← hP]
    rw [Fin.sum_univ_eq_sum_range (fun d => ∑ e : Fin D, (∑ r ∈ range s.order, P d r * uAt s i n t r) *
      W.get d e * ∑ q ∈ range s.order, P e q * uAt s i n t q) D]
    refine sum_congr rfl fun d _ => ?_
    rw [Fin.sum_univ_eq_sum_range (fun e => (∑ r ∈ range s.order, P d r * uAt s i n t r) *
      W.get d e * ∑ q ∈ range s.order, P e q * uAt s i n t q) D]
    rw [sum_comm]
    refine sum_congr rfl fun e _ => ?_
    rw [sum_mul, sum_mul_sum]
    refine sum_congr rfl fun r _ => sum_congr rfl fun q _ => ?_
    ring
  have hc : ∀ a b, Continuous fun t => uAt s i n t a * uAt s i n t b := fun a b =>
    (uAt_continuous i n a).mul (uAt_continuous i n b)
  simp only [e]
  rw [segMat, quad_segment, ← hP]
  rw [intervalIntegral.integral_finsetSum]
  · refine sum_congr rfl fun d _ => ?_
    rw [intervalIntegral.integral_finsetSum]
    · refine sum_congr rfl fun r hr => ?_
      rw [intervalIntegral.integral_finsetSum]
      · refine sum_congr rfl fun e _ => ?_
        rw [intervalIntegral.integral_finsetSum]
        · refine sum_congr rfl fun q hq => ?_
          rw [intervalIntegral.integral_const_mul, ← derive_eq w (by omega) n (mem_range.1 hr) (mem_range.1 hq)]
          ring
        · intro q _
          exact ((hc r q).const_mul _).intervalIntegrable _ _
      · intro e _
        exact (continuous_finsetSum _ fun q _ => (hc r q).const_mul _).intervalIntegrable _ _
    · intro r _
      exact (continuous_finsetSum _ fun e _ => continuous_finsetSum _ fun q _ =>
        (hc r q).const_mul _).intervalIntegrable _ _
  · intro d _
    exact (continuous_finsetSum _ fun r _ => continuous_finsetSum _ fun e _ => continuous_finsetSum _ fun q _ =>
        (hc r q).const_mul _).intervalIntegrable _ _

/-- On a segment the integral of the true density is that of its polynomial. -/
theorem density_segment (w : WellFormed s) (W : Mat ℝ) (n : Nat) {i : Nat} (h1 : s.order - 1 ≤ i)
    (h2 : i < s.knots.length - s.order) :
    IntervalIntegrable (motionDensity s W n) MeasureTheory.volume (knotAt s.knots i) (knotAt s.knots (i + 1)) ∧
    ∫ t in (knotAt s.knots i)..(knotAt s.knots (i + 1)), motionDensity s W n t =
      ∫ t in (knotAt s.knots i)..(knotAt s.knots (i + 1)), segDensity s W i n t := by
  have hk := w.order_ge
  have hle := w.sorted i (i + 1) (by omega) (by omega)
  have heq : Set.EqOn (segDensity s W i n) (motionDensity s W n)
      (Set.uIoo (knotAt s.knots i) (knotAt s.knots (i + 1))) := by
    intro x hx
    rw [Set.uIoo_of_le hle] at hx
    unfold segDensity motionDensity
    refine sum_congr rfl fun d _ => sum_congr rfl fun e _ => ?_
    rw [iteratedDeriv_curve w d h1 h2 n hx.1 hx.2, iteratedDeriv_curve w e h1 h2 n hx.1 hx.2]
  have hint : IntervalIntegrable (segDensity s W i n) MeasureTheory.volume (knotAt s.knots i)
      (knotAt s.knots (i + 1)) := (segDensity_continuous W i n).intervalIntegrable _ _
  exact ⟨hint.congr_uIoo heq, (intervalIntegral.integral_congr_uIoo heq).symm⟩

/-- The sum of the quadratic forms of the segment matrices is the motion integral. -/
theorem sum_segments (w : WellFormed s) (W : Mat ℝ) (n : Nat) :
    ((List.range (numValidTimeSegments s.order s.knots.length)).map fun seg =>
      quad (D * s.order) (segMat s W.get seg n) (window D seg (stacked s.coeffs))).sum =
      motionIntegral s W n := by
  have hk := w.order_ge; have hn := w.enough
  have hm : numValidTimeSegments s.order s.knots.length = s.knots.length + 1 - 2 * s.order := rfl
  set m := numValidTimeSegments s.order s.knots.length with hmd
  rw [List.sum_range_map_eq_sum' m]
  have e : ∀ seg ∈ range m, quad (D * s.order) (segMat s W.get seg n) (window D seg (stacked s.coeffs)) =
      ∫ t in (knotAt s.knots (seg + (s.order - 1)))..(knotAt s.knots (seg + 1 + (s.order - 1))),
        motionDensity s W n t := by
    intro seg hs
    have hs := mem_range.1 hs
    rw [quad_segMat w W n (by rw [← hmd]; exact hs)]
    rw [show seg + s.order - 1 = seg + (s.order - 1) by omega,
      show seg + 1 + (s.order - 1) = seg + (s.order - 1) + 1 by omega]
    exact (density_segment w W n (by omega) (by omega)).2.symm
  rw [sum_congr rfl e, motionIntegral]
  have := intervalIntegral.sum_integral_adjacent_intervals (f := motionDensity s W n)
    (μ := MeasureTheory.volume) (a := fun j => knotAt s.knots (j + (s.order - 1))) (n := m) ?_
  · rw [this]
    rw [zero_add, show m + (s.order - 1) = s.knots.length - s.order by omega]
  · intro j hj
    rw [show j + 1 + (s.order - 1) = j + (s.order - 1) + 1 by omega]
    exact (density_segment w W n (by omega) (by omega)).1
where
  List.sum_range_map_eq_sum' (m : Nat) {f : Nat → ℝ} : ((List.range m).map f).sum = ∑ i ∈ range m, f i := by
    induction m with
    | zero => simp
    | succ m ih => rw [List.range_succ, List.map_append, List.sum_append, ih, sum_range_succ]; simp

end Kalibr.Motion
