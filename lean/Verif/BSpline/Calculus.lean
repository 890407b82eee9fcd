import Verif.BSpline.Props
import Mathlib.Analysis.Calculus.Deriv.Pow
import Mathlib.Analysis.Calculus.Deriv.Add
import Mathlib.Analysis.Calculus.Deriv.Mul
import Mathlib.Analysis.Calculus.IteratedDeriv.Defs
import Mathlib.MeasureTheory.Integral.IntervalIntegral.FundThmCalculus

/-!
# Calculus properties of the B-spline (C46)
-/

namespace Kalibr.BSpline

open Finset

/-! ## The integral is antisymmetric and additive, in exact arithmetic of any ordered field -/

section Algebra

variable {K : Type} [Field K] [LinearOrder K] [IsStrictOrderedRing K] {D : Nat} {s : Spline K D}

theorem integralPiece_of (w : WellFormed s) {seg : Nat} (h1 : s.order - 1 ≤ seg)
    (h2 : seg < s.knots.length - s.order) (width ρ : K) :
    integralPiece s seg width ρ = .ok fun e => width * ∑ c ∈ range s.order,
      (s.coeffs.getD (seg + 1 - s.order + c) 0) e *
        weights s.order (basisM (knotAt s.knots) s.order seg) (fun r => ρ ^ (r + 1) / ((r : K) + 1)) c := by
  have hk := w.order_ge; have hn := w.enough; have hc := w.count
  unfold integralPiece
  rw [if_neg (by omega), w.basis_get h1 h2]
  simp only [combine]
  rw [if_pos (by omega)]

/-- Value of the integral over a fraction of a segment. -/
def pieceVal (s : Spline K D) (seg : Nat) (width ρ : K) : Fin D → K := fun e =>
  width * ∑ c ∈ range s.order, (s.coeffs.getD (seg + 1 - s.order + c) 0) e *
    weights s.order (basisM (knotAt s.knots) s.order seg) (fun r => ρ ^ (r + 1) / ((r : K) + 1)) c

theorem integralMid_of (w : WellFormed s) (a m : Nat) (h1 : s.order - 1 ≤ a)
    (h2 : a + m ≤ s.knots.length - s.order) :
    integralMid s (List.range' a m) = .ok fun e => ∑ j ∈ Ico a (a + m),
      pieceVal s j (knotAt s.knots (j + 1) - knotAt s.knots j) 1 e := by
  induction m generalizing a with
  | zero => simp [integralMid]; rfl
  | succ m ih =>
    rw [List.range'_succ]
    unfold integralMid
    rw [integralPiece_of w h1 (by omega), ih (a + 1) (by omega) (by omega)]
    simp only [Out.ok_bind, Out.pure_eq, Out.ok.injEq]
    funext e
    rw [sum_eq_sum_Ico_succ_bot (by omega), show a + 1 + m = a + (m + 1) by omega]
    rfl

/-- Value of a remainder term. -/
def remVal (s : Spline K D) (t : K) (u : K × Nat) : Fin D → K :=
  if remTol < t - knotAt s.knots u.2 ∧ remTol < u.1 then
    pieceVal s u.2 u.1 ((t - knotAt s.knots u.2) / u.1)
  else 0

theorem integralRem_of (w : WellFormed s) {t : K} {u : K × Nat} (h1 : s.order - 1 ≤ u.2)
    (h2 : u.2 < s.knots.length - s.order) : integralRem s t u = .ok (remVal s t u) := by
  unfold integralRem remVal
  by_cases h : remTol < t - knotAt s.knots u.2 ∧ remTol < u.1
  · rw [if_pos h, if_pos h, integralPiece_of w h1 h2]; rfl
  · rw [if_neg h, if_neg h]

/-- The located index is monotone in the time. -/
theorem index_mono (w : WellFormed s) {t1 t2 : K} (h : t1 ≤ t2) {u1 u2 : K × Nat}
    (h1 : computeTIndex s t1 = .ok u1) (h2 : computeTIndex s t2 = .ok u2) : u1.2 ≤ u2.2 := by
  obtain ⟨a0, a1, a2, a3, a5⟩ := computeTIndex_ok w h1
  obtain ⟨b0, b1, b2, b3, b5⟩ := computeTIndex_ok w h2
  have hn := w.enough; have hk := w.order_ge
  by_contra hlt
  push Not at hlt
  rcases b5 with ⟨_, c2⟩ | ⟨c1, c2, c3⟩
  · omega
  · rcases a5 with ⟨d1, d2⟩ | ⟨d1, d2, d3⟩
    · -- t1 snapped, t2 not, t1 ≤ t2 < hi
      have hle := w.sorted (u2.2 + 1) (s.knots.length - s.order) (by omega) (by omega)
      unfold Snapped at c1 d1
      push Not at c1
      rw [abs_lt] at d1
      rw [abs_of_pos (by linarith)] at c1
      linarith
    · have := w.sorted (u2.2 + 1) u1.2 (by omega) (by omega)
      linarith

theorem evalIntegralLe_of (w : WellFormed s) {t1 t2 : K} (h : t1 ≤ t2) {u1 u2 : K × Nat}
    (h1 : computeTIndex s t1 = .ok u1) (h2 : computeTIndex s t2 = .ok u2) :
    evalIntegralLe s t1 t2 = .ok (-remVal s t1 u1 + (fun e => ∑ j ∈ Ico u1.2 u2.2,
      pieceVal s j (knotAt s.knots (j + 1) - knotAt s.knots j) 1 e) + remVal s t2 u2) := by
  obtain ⟨_, a1, a2, _, _⟩ := computeTIndex_ok w h1
  obtain ⟨_, b1, b2, _, _⟩ := computeTIndex_ok w h2
  have hm := index_mono w h h1 h2
  unfold evalIntegralLe
  rw [h1, h2]
  simp only [Out.ok_bind]
  rw [integralRem_of w a1 a2, integralRem_of w b1 b2, integralMid_of w _ _ a1 (by omega),
    show u1.2 + (u2.2 - u1.2) = u2.2 by omega]
  rfl

/-- C46: exchanging the limits changes the sign, for all times of the valid interval. -/
theorem C46_integral_antisymm (w : WellFormed s) {lo hi t1 t2 : K} (hlo : tMin s = .ok lo)
    (hhi : tMax s = .ok hi) (h1 : lo ≤ t1 ∧ t1 ≤ hi) (h2 : lo ≤ t2 ∧ t2 ≤ hi) :
    ∃ v, evalIntegral s t1 t2 = .ok v ∧ evalIntegral s t2 t1 = .ok (-v) := by
  obtain ⟨p1, hp1⟩ := accepted w hlo hhi h1.1 h1.2
  obtain ⟨p2, hp2⟩ := accepted w hlo hhi h2.1 h2.2
  unfold evalIntegral
  rcases lt_trichotomy t1 t2 with h | h | h
  · rw [if_neg (not_lt.2 h.le), if_pos h, evalIntegralLe_of w h.le hp1 hp2]
    exact ⟨_, rfl, rfl⟩
  · subst h
    rw [if_neg (lt_irrefl _), evalIntegralLe_of w (le_refl _) hp1 hp2]
    rw [hp1] at hp2; cases hp2
    refine ⟨_, rfl, ?_⟩
    congr 1
    funext e
    simp
  · rw [if_pos h, if_neg (not_lt.2 h.le), evalIntegralLe_of w h.le hp2 hp1]
    refine ⟨_, rfl, ?_⟩
    simp

/-- C46: the integral is additive over adjacent intervals, in whatever order the times come. -/
theorem C46_integral_additive (w : WellFormed s) {lo hi a b c : K} (hlo : tMin s = .ok lo)
    (hhi : tMax s = .ok hi) (ha : lo ≤ a ∧ a ≤ hi) (hb : lo ≤ b ∧ b ≤ hi) (hc : lo ≤ c ∧ c ≤ hi) :
    ∃ v1 v2, evalIntegral s a b = .ok v1 ∧ evalIntegral s b c = .ok v2 ∧
      evalIntegral s a c = .ok (v1 + v2) := by
  -- a potential: every integral is a difference of potentials
  have pot : ∀ t, lo ≤ t ∧ t ≤ hi → ∃ p, computeTIndex s t = .ok p :=
    fun t ht => accepted w hlo hhi ht.1 ht.2
  let Φ : K × Nat → K → Fin D → K := fun p t e =>
    (∑ j ∈ Ico 0 p.2, pieceVal s j (knotAt s.knots (j + 1) - knotAt s.knots j) 1 e) + remVal s t p e
  have hΦ : ∀ x y px py, computeTIndex s x = .ok px → computeTIndex s y = .ok py →
      evalIntegral s x y = .ok (Φ py y - Φ px x) := by
    have hle : ∀ x y px py, x ≤ y → computeTIndex s x = .ok px → computeTIndex s y = .ok py →
        evalIntegralLe s x y = .ok (Φ py y - Φ px x) := by
      intro x y px py hxy hx hy
      rw [evalIntegralLe_of w hxy hx hy]
      congr 1
      funext e
      have hm := index_mono w hxy hx hy
      have := sum_Ico_consecutive (fun j => pieceVal s j
        (knotAt s.knots (j + 1) - knotAt s.knots j) 1 e) (Nat.zero_le px.2) hm
      simp only [Φ, Pi.add_apply, Pi.neg_apply, Pi.sub_apply, ← this]
      ring
    intro x y px py hx hy
    unfold evalIntegral
    by_cases h : y < x
    · rw [if_pos h, hle y x py px h.le hy hx]
      simp
    · rw [if_neg h, hle x y px py (not_lt.1 h) hx hy]
  obtain ⟨pa, hpa⟩ := pot a ha
  obtain ⟨pb, hpb⟩ := pot b hb
  obtain ⟨pc, hpc⟩ := pot c hc
  refine ⟨_, _, hΦ a b pa pb hpa hpb, hΦ b c pb pc hpb hpc, ?_⟩
  rw [hΦ a c pa pc hpa hpc]
  congr 1
  abel

end Algebra

/-! ## Derivatives -/

section Real

variable {D : Nat} {s : Spline ℝ D}

/-- Component `e` of the `n`-th derivative as the interface returns it (0 where it raises). -/
noncomputable def curveD (s : Spline ℝ D) (e : Fin D) (n : Nat) (t : ℝ) : ℝ :=
  match evalD s t n with
  | .ok v => v e
  | _ => 0

/-- The time lies strictly inside knot segment `idx` of the valid interval, and either before the
snapping zone of width `1e-10` at the end or in the last segment. -/
structure Inside (s : Spline ℝ D) (idx : Nat) (t : ℝ) : Prop where
  low : s.order - 1 ≤ idx
  high : idx < s.knots.length - s.order
  left : knotAt s.knots idx < t
  right : t < knotAt s.knots (idx + 1)
  zone : t < knotAt s.knots (s.knots.length - s.order) - snapTol ∨
    idx + 1 = s.knots.length - s.order

theorem computeTIndex_inside (w : WellFormed s) {idx : Nat} {t : ℝ} (h : Inside s idx t) :
    computeTIndex s t = .ok (knotAt s.knots (idx + 1) - knotAt s.knots idx, idx) := by
  have hn := w.enough; have hk := w.order_ge
  obtain ⟨a1, a2, a3, a4, a5⟩ := h
  have hlo := w.sorted (s.order - 1) idx a1 (by omega)
  have hhi := w.sorted (idx + 1) (s.knots.length - s.order) (by omega) (by omega)
  obtain ⟨p, hp⟩ := accepted w w.tMin_eq w.tMax_eq (show _ ≤ t by linarith) (by linarith)
  obtain ⟨_, b1, b2, b3, b5⟩ := computeTIndex_ok w hp
  have : p.2 = idx := by
    rcases b5 with ⟨b5, b6⟩ | ⟨b5, b6, b7⟩
    · rcases a5 with a5 | a5
      · exfalso
        unfold Snapped at b5
        rw [abs_lt] at b5
        linarith
      · omega
    · rcases Nat.lt_trichotomy p.2 idx with h | h | h
      · have := w.sorted (p.2 + 1) idx (by omega) (by omega)
        linarith
      · exact h
      · have := w.sorted (idx + 1) p.2 (by omega) (by omega)
        linarith
  rw [hp]
  obtain ⟨x, y⟩ := p
  simp only at this b3
  subst this
  rw [b3]

theorem inside_eventually {idx : Nat} {t : ℝ} (h : Inside s idx t) :
    ∀ᶠ x in nhds t, Inside s idx x := by
  obtain ⟨a1, a2, a3, a4, a5⟩ := h
  rcases a5 with a5 | a5
  · filter_upwards [lt_mem_nhds a3, gt_mem_nhds a4, gt_mem_nhds a5] with x h1 h2 h3
    exact ⟨a1, a2, h1, h2, Or.inl h3⟩
  · filter_upwards [lt_mem_nhds a3, gt_mem_nhds a4] with x h1 h2
    exact ⟨a1, a2, h1, h2, Or.inr a5⟩

theorem dmul_succ (r d : Nat) : dmul r (d + 1) = dmul r d * (r - d) := by
  induction d generalizing r with
  | zero => simp [dmul]
  | succ d ih =>
    cases d with
    | zero => simp [dmul]
    | succ d =>
      rw [show dmul r (d + 1 + 1 + 1) = r * dmul (r - 1) (d + 1 + 1) from rfl, ih,
        show dmul r (d + 1 + 1) = r * dmul (r - 1) (d + 1) from rfl,
        show r - 1 - (d + 1) = r - (d + 1 + 1) by omega]
      ring

theorem computeU_hasDerivAt (τ : Nat → ℝ) (k i d r : Nat) (t : ℝ) (h : τ i < τ (i + 1)) :
    HasDerivAt (fun x => computeU τ k ((x - τ i) / (τ (i + 1) - τ i)) i d r)
      (computeU τ k ((t - τ i) / (τ (i + 1) - τ i)) i (d + 1) r) t := by
  have hw : 0 < τ (i + 1) - τ i := by linarith
  unfold computeU
  simp only [if_pos hw]
  by_cases h1 : d ≤ r ∧ r < k
  · simp only [if_pos h1]
    have hlin : HasDerivAt (fun x => (x - τ i) / (τ (i + 1) - τ i)) (1 / (τ (i + 1) - τ i)) t :=
      ((hasDerivAt_id t).sub_const (τ i)).div_const _
    have hpow := ((hlin.pow (r - d)).const_mul (1 / (τ (i + 1) - τ i) ^ d)).mul_const (dmul r d : ℝ)
    refine hpow.congr_deriv ?_
    by_cases h2 : d + 1 ≤ r
    · rw [if_pos ⟨h2, h1.2⟩, dmul_succ]
      push_cast [Nat.cast_sub h1.1]
      rw [show r - (d + 1) = r - d - 1 by omega]
      rw [pow_succ]
      field_simp
    · have : r = d := by omega
      subst this
      rw [if_neg (by omega)]
      simp
  · simp only [if_neg h1]
    rw [if_neg (by omega)]
    exact hasDerivAt_const _ _

/-- C46: strictly inside a segment, `evalD(·, n+1)` is the derivative of `evalD(·, n)`. -/
theorem C46_derivative_partial (w : WellFormed s) {idx : Nat} {t : ℝ} (h : Inside s idx t)
    (e : Fin D) (n : Nat) :
    (∃ v, evalD s t n = .ok v) ∧ HasDerivAt (curveD s e n) (curveD s e (n + 1) t) t := by
  have hseg : knotAt s.knots idx < knotAt s.knots (idx + 1) := by linarith [h.left, h.right]
  have hw : 0 < knotAt s.knots (idx + 1) - knotAt s.knots idx := by linarith
  have formula : ∀ x m, Inside s idx x → curveD s e m x = ∑ c ∈ range s.order,
      (s.coeffs.getD (idx + 1 - s.order + c) 0) e *
      weights s.order (basisM (knotAt s.knots) s.order idx)
      (computeU (knotAt s.knots) s.order ((x - knotAt s.knots idx) /
        (knotAt s.knots (idx + 1) - knotAt s.knots idx)) idx m) c := by
    intro x m hx
    unfold curveD
    rw [evalD_of w (computeTIndex_inside w hx)]
    simp only [normTime, if_neg (not_le.2 hw)]
  refine ⟨⟨_, evalD_of w (computeTIndex_inside w h) n⟩, ?_⟩
  rw [formula t (n + 1) h]
  have hd : HasDerivAt (fun x => ∑ c ∈ range s.order,
      (s.coeffs.getD (idx + 1 - s.order + c) 0) e *
      weights s.order (basisM (knotAt s.knots) s.order idx)
      (computeU (knotAt s.knots) s.order ((x - knotAt s.knots idx) /
        (knotAt s.knots (idx + 1) - knotAt s.knots idx)) idx n) c)
      (∑ c ∈ range s.order,
      (s.coeffs.getD (idx + 1 - s.order + c) 0) e *
      weights s.order (basisM (knotAt s.knots) s.order idx)
      (computeU (knotAt s.knots) s.order ((t - knotAt s.knots idx) /
        (knotAt s.knots (idx + 1) - knotAt s.knots idx)) idx (n + 1)) c) t := by
    apply HasDerivAt.fun_sum
    intro c _
    apply HasDerivAt.const_mul
    unfold weights
    apply HasDerivAt.fun_sum
    intro r _
    apply HasDerivAt.const_mul
    exact computeU_hasDerivAt _ _ _ _ _ _ hseg
  refine hd.congr_of_eventuallyEq ?_
  filter_upwards [inside_eventually h] with x hx
  exact formula x n hx

/-- C46: strictly inside a segment, `evalD(t, n)` is the `n`-th derivative of the curve. -/
theorem C46_iterated_derivative_partial (w : WellFormed s) {idx : Nat} (e : Fin D) (n : Nat) {t : ℝ}
    (h : Inside s idx t) : iteratedDeriv n (curveD s e 0) t = curveD s e n t := by
  induction n generalizing t with
  | zero => simp
  | succ n ih =>
    rw [iteratedDeriv_succ]
    have : iteratedDeriv n (curveD s e 0) =ᶠ[nhds t] curveD s e n := by
      filter_upwards [inside_eventually h] with x hx
      exact ih hx
    rw [this.deriv_eq]
    exact (C46_derivative_partial w h e n).2.deriv

/-! ## Integrals -/

/-- The mathematical curve: the B-spline of the knots and coefficients. -/
noncomputable def curve (s : Spline ℝ D) (e : Fin D) (t : ℝ) : ℝ :=
  ∑ m ∈ range s.coeffs.length, bsplineN (knotAt s.knots) s.order m t * (s.coeffs.getD m 0) e

/-- The polynomial of segment `i`. -/
noncomputable def segPoly (s : Spline ℝ D) (e : Fin D) (i : Nat) (t : ℝ) : ℝ :=
  ∑ c ∈ range s.order, (s.coeffs.getD (i + 1 - s.order + c) 0) e *
    bw (knotAt s.knots) s.order i c
      ((t - knotAt s.knots i) / (knotAt s.knots (i + 1) - knotAt s.knots i))

theorem curve_eq_segPoly (w : WellFormed s) (e : Fin D) {i : Nat} (h1 : s.order - 1 ≤ i)
    (h2 : i < s.knots.length - s.order) {t : ℝ} (ht : knotAt s.knots i ≤ t)
    (ht' : t < knotAt s.knots (i + 1)) : curve s e t = segPoly s e i t := by
  have hk := w.order_ge; have hn := w.enough; have hc := w.count
  have hseg : knotAt s.knots i < knotAt s.knots (i + 1) := by linarith
  have hw : 0 < knotAt s.knots (i + 1) - knotAt s.knots i := by linarith
  have key : ∀ m, m < s.coeffs.length → bsplineN (knotAt s.knots) s.order m t =
      if i ≤ m + (s.order - 1) ∧ m ≤ i then
        bw (knotAt s.knots) s.order i (m + (s.order - 1) - i)
          ((t - knotAt s.knots i) / (knotAt s.knots (i + 1) - knotAt s.knots i)) else 0 := by
    intro m hm
    unfold bsplineN
    rw [cox_congr _ _ (fun j => if j = i then 1 else 0) t _ m ?_,
      cox_eq_bw _ s.knots.length (s.order - 1) i m
        ((t - knotAt s.knots i) / (knotAt s.knots (i + 1) - knotAt s.knots i)) t w.sorted hseg
        ?_ h1 (by omega), show s.order - 1 + 1 = s.order by omega]
    · rw [div_mul_cancel₀ _ (ne_of_gt hw)]; ring
    · intro j _ hj
      by_cases h : j = i
      · subst h; rw [if_pos ⟨ht, ht'⟩, if_pos rfl]
      · rw [if_neg h, if_neg]
        rintro ⟨g1, g2⟩
        rcases Nat.lt_or_gt_of_ne h with h | h
        · have := w.sorted (j + 1) i (by omega) (by omega)
          linarith
        · have := w.sorted (i + 1) j (by omega) (by omega)
          linarith
  unfold curve segPoly
  rw [window_sum _ s.coeffs.length s.order (i + 1 - s.order) (by omega)]
  · apply sum_congr rfl
    intro c hcr
    have hcr : c < s.order := by simpa using hcr
    rw [key _ (by omega), if_pos (by omega), mul_comm,
      show i + 1 - s.order + c + (s.order - 1) - i = c by omega]
  · intro m hm hnot
    rw [key m hm, if_neg (by omega), zero_mul]

theorem segPoly_continuous (e : Fin D) (i : Nat) : Continuous (segPoly s e i) := by
  unfold segPoly bw
  fun_prop

theorem pieceVal_hasDerivAt (e : Fin D) {i : Nat}
    (h : knotAt s.knots i < knotAt s.knots (i + 1)) (t : ℝ) :
    HasDerivAt (fun x => pieceVal s i (knotAt s.knots (i + 1) - knotAt s.knots i)
      ((x - knotAt s.knots i) / (knotAt s.knots (i + 1) - knotAt s.knots i)) e)
      (segPoly s e i t) t := by
  have hw : 0 < knotAt s.knots (i + 1) - knotAt s.knots i := by linarith
  unfold pieceVal segPoly bw weights
  have hlin : HasDerivAt (fun x => (x - knotAt s.knots i) /
      (knotAt s.knots (i + 1) - knotAt s.knots i))
      (1 / (knotAt s.knots (i + 1) - knotAt s.knots i)) t :=
    ((hasDerivAt_id t).sub_const _).div_const _
  have hterm : ∀ c r, HasDerivAt (fun x => basisM (knotAt s.knots) s.order i r c *
      (((x - knotAt s.knots i) / (knotAt s.knots (i + 1) - knotAt s.knots i)) ^ (r + 1) / ((r : ℝ) + 1)))
      ((1 / (knotAt s.knots (i + 1) - knotAt s.knots i)) *
      (((t - knotAt s.knots i) / (knotAt s.knots (i + 1) - knotAt s.knots i)) ^ r *
        basisM (knotAt s.knots) s.order i r c)) t := by
    intro c r
    have := ((hlin.pow (r + 1)).div_const ((r : ℝ) + 1)).const_mul
      (basisM (knotAt s.knots) s.order i r c)
    refine this.congr_deriv ?_
    have : (r : ℝ) + 1 ≠ 0 := by positivity
    push_cast
    field_simp
  have hsum : HasDerivAt (fun x => ∑ c ∈ range s.order,
      (s.coeffs.getD (i + 1 - s.order + c) 0) e * ∑ r ∈ range s.order,
      basisM (knotAt s.knots) s.order i r c *
      (((x - knotAt s.knots i) / (knotAt s.knots (i + 1) - knotAt s.knots i)) ^ (r + 1) / ((r : ℝ) + 1)))
      (∑ c ∈ range s.order, (s.coeffs.getD (i + 1 - s.order + c) 0) e * ∑ r ∈ range s.order,
       ((1 / (knotAt s.knots (i + 1) - knotAt s.knots i)) *
      (((t - knotAt s.knots i) / (knotAt s.knots (i + 1) - knotAt s.knots i)) ^ r *
        basisM (knotAt s.knots) s.order i r c))) t := by
    apply HasDerivAt.fun_sum
    intro c _
    apply HasDerivAt.const_mul
    apply HasDerivAt.fun_sum
    intro r _
    exact hterm c r
  refine (hsum.const_mul (knotAt s.knots (i + 1) - knotAt s.knots i)).congr_deriv ?_
  rw [mul_sum]
  apply sum_congr rfl
  intro c _
  rw [← mul_sum]
  field_simp

theorem pieceVal_zero (e : Fin D) (i : Nat) (width : ℝ) : pieceVal s i width 0 e = 0 := by
  unfold pieceVal weights
  simp

/-- The integral over the beginning of a segment. -/
theorem integral_segment (w : WellFormed s) (e : Fin D) {i : Nat} (h1 : s.order - 1 ≤ i)
    (h2 : i < s.knots.length - s.order) {y : ℝ} (hy : knotAt s.knots i ≤ y)
    (hy' : y ≤ knotAt s.knots (i + 1)) (hseg : knotAt s.knots i < knotAt s.knots (i + 1)) :
    IntervalIntegrable (curve s e) MeasureTheory.volume (knotAt s.knots i) y ∧
    ∫ x in (knotAt s.knots i)..y, curve s e x =
      pieceVal s i (knotAt s.knots (i + 1) - knotAt s.knots i)
        ((y - knotAt s.knots i) / (knotAt s.knots (i + 1) - knotAt s.knots i)) e := by
  have heq : Set.EqOn (segPoly s e i) (curve s e) (Set.uIoo (knotAt s.knots i) y) := by
    intro x hx
    rw [Set.uIoo_of_le hy] at hx
    exact (curve_eq_segPoly w e h1 h2 hx.1.le (lt_of_lt_of_le hx.2 hy')).symm
  have hint : IntervalIntegrable (segPoly s e i) MeasureTheory.volume (knotAt s.knots i) y :=
    (segPoly_continuous e i).intervalIntegrable _ _
  refine ⟨hint.congr_uIoo heq, ?_⟩
  rw [← intervalIntegral.integral_congr_uIoo heq]
  rw [intervalIntegral.integral_eq_sub_of_hasDerivAt (fun x _ => pieceVal_hasDerivAt e hseg x) hint]
  simp [pieceVal_zero]

theorem integral_segment' (w : WellFormed s) (e : Fin D) {i : Nat} (h1 : s.order - 1 ≤ i)
    (h2 : i < s.knots.length - s.order) :
    IntervalIntegrable (curve s e) MeasureTheory.volume (knotAt s.knots i) (knotAt s.knots (i + 1)) ∧
    ∫ x in (knotAt s.knots i)..(knotAt s.knots (i + 1)), curve s e x =
      pieceVal s i (knotAt s.knots (i + 1) - knotAt s.knots i) 1 e := by
  have hk := w.order_ge
  have hle := w.sorted i (i + 1) (by omega) (by omega)
  rcases lt_or_eq_of_le hle with hlt | heq
  · have := integral_segment w e h1 h2 hle (le_refl _) hlt
    rwa [div_self (by linarith)] at this
  · rw [← heq]
    refine ⟨IntervalIntegrable.refl, ?_⟩
    simp [pieceVal]

/-- The integral of the curve is a combination of the pieces. -/
theorem integral_pieces (w : WellFormed s) (e : Fin D) {t1 t2 : ℝ} {i j : Nat} (hij : i ≤ j)
    (h1 : s.order - 1 ≤ i) (h2 : j < s.knots.length - s.order)
    (hi : knotAt s.knots i ≤ t1) (hi' : t1 ≤ knotAt s.knots (i + 1))
    (hiseg : knotAt s.knots i < knotAt s.knots (i + 1))
    (hj : knotAt s.knots j ≤ t2) (hj' : t2 ≤ knotAt s.knots (j + 1))
    (hjseg : knotAt s.knots j < knotAt s.knots (j + 1)) :
    ∫ x in t1..t2, curve s e x =
      -(∫ x in (knotAt s.knots i)..t1, curve s e x) +
      (∑ a ∈ Ico i j, pieceVal s a (knotAt s.knots (a + 1) - knotAt s.knots a) 1 e) +
      ∫ x in (knotAt s.knots j)..t2, curve s e x := by
  obtain ⟨p1, _⟩ := integral_segment w e h1 (by omega) hi hi' hiseg
  obtain ⟨p2, _⟩ := integral_segment w e (i := j) (by omega) h2 hj hj' hjseg
  have pm : ∀ a ∈ Set.Ico i j, IntervalIntegrable (curve s e) MeasureTheory.volume
      (knotAt s.knots a) (knotAt s.knots (a + 1)) := by
    intro a ha
    have := ha.1; have := ha.2
    exact (integral_segment' w e (by omega) (by omega)).1
  have pm' := IntervalIntegrable.trans_iterate_Ico hij (fun k hk => pm k hk)
  have hsum := intervalIntegral.sum_integral_adjacent_intervals_Ico hij (fun k hk => pm k hk)
  have e1 : ∑ a ∈ Ico i j, pieceVal s a (knotAt s.knots (a + 1) - knotAt s.knots a) 1 e =
      ∫ x in (knotAt s.knots i)..(knotAt s.knots j), curve s e x := by
    rw [← hsum]
    apply sum_congr rfl
    intro a ha
    simp only [mem_Ico] at ha
    exact (integral_segment' w e (by omega) (by omega)).2.symm
  rw [e1, ← intervalIntegral.integral_symm]
  rw [intervalIntegral.integral_add_adjacent_intervals p1.symm pm',
    intervalIntegral.integral_add_adjacent_intervals (p1.symm.trans pm') p2]

/-- Nothing is dropped at time `t`: the part of its segment before it is empty or longer than
`1e-16`. -/
def Resolved (s : Spline ℝ D) (t : ℝ) : Prop :=
  ∀ p, computeTIndex s t = .ok p → t = knotAt s.knots p.2 ∨ remTol < t - knotAt s.knots p.2

theorem remVal_eq (w : WellFormed s) (e : Fin D) {lo hi t : ℝ} (hlo : tMin s = .ok lo)
    (hhi : tMax s = .ok hi) (h2 : t ≤ hi) {p : ℝ × Nat} (hp : computeTIndex s t = .ok p)
    (hb : Bracketed s t) (hr : Resolved s t) :
    remVal s t p e = ∫ x in (knotAt s.knots p.2)..t, curve s e x := by
  obtain ⟨_, a1, a2, a3, a5⟩ := computeTIndex_ok w hp
  have hseg := seg_pos w hp hb.regular
  obtain ⟨b1, b2⟩ := seg_bracket w hlo hhi h2 hp hb
  unfold remVal
  rcases hr p hp with h | h
  · rw [← h]
    have : ¬ (remTol < t - t ∧ remTol < p.1) := by
      rintro ⟨h1, _⟩
      have : (0 : ℝ) < remTol := by unfold remTol; positivity
      linarith
    rw [if_neg this]
    simp
  · rw [if_pos ⟨h, by rw [a3]; linarith⟩, (integral_segment w e a1 a2 b1 b2 hseg).2, a3]

/-- C46: the integral returned is the exact integral of the curve. -/
theorem C46_integral_exact_partial (w : WellFormed s) (e : Fin D) {lo hi t1 t2 : ℝ}
    (hlo : tMin s = .ok lo) (hhi : tMax s = .ok hi) (h1 : lo ≤ t1 ∧ t1 ≤ hi) (h2 : lo ≤ t2 ∧ t2 ≤ hi)
    (hb1 : Bracketed s t1) (hb2 : Bracketed s t2) (hr1 : Resolved s t1) (hr2 : Resolved s t2) :
    ∃ v, evalIntegral s t1 t2 = .ok v ∧ v e = ∫ x in t1..t2, curve s e x := by
  have main : ∀ a b, a ≤ b → (lo ≤ a ∧ a ≤ hi) → (lo ≤ b ∧ b ≤ hi) → Bracketed s a → Bracketed s b →
      Resolved s a → Resolved s b →
      ∃ v, evalIntegralLe s a b = .ok v ∧ v e = ∫ x in a..b, curve s e x := by
    intro a b hab ha hb hba hbb hra hrb
    obtain ⟨p, hp⟩ := accepted w hlo hhi ha.1 ha.2
    obtain ⟨q, hq⟩ := accepted w hlo hhi hb.1 hb.2
    obtain ⟨_, a1, a2, a3, a5⟩ := computeTIndex_ok w hp
    obtain ⟨_, c1, c2, c3, c5⟩ := computeTIndex_ok w hq
    obtain ⟨g1, g2⟩ := seg_bracket w hlo hhi ha.2 hp hba
    obtain ⟨g3, g4⟩ := seg_bracket w hlo hhi hb.2 hq hbb
    refine ⟨_, evalIntegralLe_of w hab hp hq, ?_⟩
    rw [integral_pieces w e (index_mono w hab hp hq) a1 c2 g1 g2 (seg_pos w hp hba.regular) g3 g4
      (seg_pos w hq hbb.regular)]
    simp only [Pi.add_apply, Pi.neg_apply]
    rw [remVal_eq w e hlo hhi ha.2 hp hba hra, remVal_eq w e hlo hhi hb.2 hq hbb hrb]
  unfold evalIntegral
  by_cases h : t2 < t1
  · rw [if_pos h]
    obtain ⟨v, hv, hve⟩ := main t2 t1 h.le h2 h1 hb2 hb1 hr2 hr1
    rw [hv]
    refine ⟨_, rfl, ?_⟩
    rw [Pi.neg_apply, hve, intervalIntegral.integral_symm, neg_neg]
  · rw [if_neg h]
    exact main t1 t2 (not_lt.1 h) h1 h2 hb1 hb2 hr1 hr2

/-- C46: in general at most `1e-16` of curve is dropped at each end: with coefficients bounded by
`B` the error is at most `2e-16 * B`. -/
theorem C46_integral_error_partial (w : WellFormed s) (e : Fin D) {lo hi t1 t2 B : ℝ}
    (hlo : tMin s = .ok lo) (hhi : tMax s = .ok hi) (h1 : lo ≤ t1 ∧ t1 ≤ hi) (h2 : lo ≤ t2 ∧ t2 ≤ hi)
    (hb1 : Bracketed s t1) (hb2 : Bracketed s t2) (hB : ∀ x ∈ s.coeffs, |x e| ≤ B) :
    ∃ v, evalIntegral s t1 t2 = .ok v ∧
      |v e - ∫ x in t1..t2, curve s e x| ≤ 2 / 10000000000000000 * B := by
  have hn := w.enough; have hk := w.order_ge; have hc := w.count
  have tol : (remTol : ℝ) = 1 / 10000000000000000 := rfl
  have hB0 : 0 ≤ B := by
    have : 0 < s.coeffs.length := by omega
    exact le_trans (abs_nonneg _) (hB _ (List.getElem_mem this))
  -- the remainder differs from the integral by at most 1e-16 * B
  have rem : ∀ t, lo ≤ t ∧ t ≤ hi → Bracketed s t → ∀ p, computeTIndex s t = .ok p →
      |remVal s t p e - ∫ x in (knotAt s.knots p.2)..t, curve s e x| ≤ remTol * B := by
    intro t ht hbt p hp
    obtain ⟨_, a1, a2, a3, a5⟩ := computeTIndex_ok w hp
    have hseg := seg_pos w hp hbt.regular
    obtain ⟨b1, b2⟩ := seg_bracket w hlo hhi ht.2 hp hbt
    by_cases hbig : remTol < t - knotAt s.knots p.2
    · have : remVal s t p e = ∫ x in (knotAt s.knots p.2)..t, curve s e x := by
        unfold remVal
        rw [if_pos ⟨hbig, by rw [a3]; linarith⟩, (integral_segment w e a1 a2 b1 b2 hseg).2, a3]
      rw [this, sub_self, abs_zero]
      exact mul_nonneg (by rw [tol]; positivity) hB0
    · have hz : remVal s t p e = 0 := by
        unfold remVal
        rw [if_neg (fun h => hbig h.1)]; rfl
      rw [hz, zero_sub, abs_neg]
      have hbd : ∀ x ∈ Set.uIoc (knotAt s.knots p.2) t, x < knotAt s.knots (p.2 + 1) →
          |curve s e x| ≤ B := by
        intro x hx hx'
        rw [Set.uIoc_of_le b1] at hx
        rw [curve_eq_segPoly w e a1 a2 hx.1.le hx']
        unfold segPoly
        have hw : 0 < knotAt s.knots (p.2 + 1) - knotAt s.knots p.2 := by linarith
        have hu0 : 0 ≤ (x - knotAt s.knots p.2) / (knotAt s.knots (p.2 + 1) - knotAt s.knots p.2) :=
          div_nonneg (by linarith [hx.1]) hw.le
        have hu1 : (x - knotAt s.knots p.2) / (knotAt s.knots (p.2 + 1) - knotAt s.knots p.2) ≤ 1 := by
          rw [div_le_one hw]; linarith
        have hsum : ∑ c ∈ range s.order, bw (knotAt s.knots) s.order p.2 c
            ((x - knotAt s.knots p.2) / (knotAt s.knots (p.2 + 1) - knotAt s.knots p.2)) = 1 := by
          have := computeU_sum (knotAt s.knots) s.order p.2 0
            ((x - knotAt s.knots p.2) / (knotAt s.knots (p.2 + 1) - knotAt s.knots p.2))
            (by omega) hseg
          simp only [if_true] at this
          rw [← this]
          apply sum_congr rfl
          intro c _
          rw [weights_eq_bw _ _ _ _ _ hseg]
        calc _ ≤ ∑ c ∈ range s.order, abs ((s.coeffs.getD (p.2 + 1 - s.order + c) 0) e *
              bw (knotAt s.knots) s.order p.2 c
            ((x - knotAt s.knots p.2) / (knotAt s.knots (p.2 + 1) - knotAt s.knots p.2))) :=
              abs_sum_le_sum_abs _ _
          _ ≤ ∑ c ∈ range s.order, B * bw (knotAt s.knots) s.order p.2 c
            ((x - knotAt s.knots p.2) / (knotAt s.knots (p.2 + 1) - knotAt s.knots p.2)) := by
              apply sum_le_sum
              intro c hcr
              have hcr : c < s.order := by simpa using hcr
              have hpos := bw_nonneg (knotAt s.knots) s.knots.length s.order p.2 c _ w.sorted
                (by omega) (by omega) (by omega) hcr hu0 hu1
              rw [abs_mul, abs_of_nonneg hpos]
              apply mul_le_mul_of_nonneg_right _ hpos
              have hl : p.2 + 1 - s.order + c < s.coeffs.length := by omega
              rw [List.getD_eq_getElem?_getD, List.getElem?_eq_getElem hl, Option.getD_some]
              exact hB _ (List.getElem_mem hl)
          _ = B := by rw [← mul_sum, hsum, mul_one]
      have hae : ∀ᵐ x, x ∈ Set.uIoc (knotAt s.knots p.2) t → ‖curve s e x‖ ≤ B := by
        have hne : ∀ᵐ x : ℝ, x ≠ knotAt s.knots (p.2 + 1) := by
          simp [MeasureTheory.ae_iff]
        filter_upwards [hne] with x hx hx2
        have hx3 := hx2
        rw [Set.uIoc_of_le b1] at hx3
        exact hbd x hx2 (lt_of_le_of_ne (le_trans hx3.2 b2) hx)
      have := intervalIntegral.norm_integral_le_of_norm_le_const_ae hae
      rw [Real.norm_eq_abs] at this
      refine le_trans this ?_
      rw [abs_of_nonneg (by linarith), mul_comm]
      exact mul_le_mul_of_nonneg_right (not_lt.1 hbig) hB0
  have main : ∀ a b, a ≤ b → (lo ≤ a ∧ a ≤ hi) → (lo ≤ b ∧ b ≤ hi) → Bracketed s a → Bracketed s b →
      ∃ v, evalIntegralLe s a b = .ok v ∧
        |v e - ∫ x in a..b, curve s e x| ≤ 2 / 10000000000000000 * B := by
    intro a b hab ha hb hba hbb
    obtain ⟨p, hp⟩ := accepted w hlo hhi ha.1 ha.2
    obtain ⟨q, hq⟩ := accepted w hlo hhi hb.1 hb.2
    obtain ⟨_, a1, a2, a3, a5⟩ := computeTIndex_ok w hp
    obtain ⟨_, c1, c2, c3, c5⟩ := computeTIndex_ok w hq
    obtain ⟨g1, g2⟩ := seg_bracket w hlo hhi ha.2 hp hba
    obtain ⟨g3, g4⟩ := seg_bracket w hlo hhi hb.2 hq hbb
    refine ⟨_, evalIntegralLe_of w hab hp hq, ?_⟩
    rw [integral_pieces w e (index_mono w hab hp hq) a1 c2 g1 g2 (seg_pos w hp hba.regular) g3 g4
      (seg_pos w hq hbb.regular)]
    simp only [Pi.add_apply, Pi.neg_apply]
    have r1 := abs_le.1 (rem a ha hba p hp)
    have r2 := abs_le.1 (rem b hb hbb q hq)
    rw [tol] at r1 r2
    rw [abs_le]
    constructor <;> linarith [r1.1, r1.2, r2.1, r2.2]
  unfold evalIntegral
  by_cases h : t2 < t1
  · rw [if_pos h]
    obtain ⟨v, hv, hve⟩ := main t2 t1 h.le h2 h1 hb2 hb1
    rw [hv]
    refine ⟨_, rfl, ?_⟩
    rw [Pi.neg_apply, intervalIntegral.integral_symm, neg_sub_neg, abs_sub_comm]
    exact hve
  · rw [if_neg h]
    exact main t1 t2 (not_lt.1 h) h1 h2 hb1 hb2

/-- A concrete real spline for the hypotheses of C46. -/
noncomputable def rKnots : List ℝ := [0, 0, 0, 1, 3, 4, 4, 5]
noncomputable def rSpline : Spline ℝ 1 :=
  ⟨3, rKnots, [fun _ => 1, fun _ => 2, fun _ => -1, fun _ => 5, fun _ => 7], initBasis 3 rKnots⟩

theorem rSpline_wf : WellFormed rSpline where
  order_ge := by decide
  enough := by simp [rSpline, rKnots]
  count := by simp [rSpline, rKnots]
  basis_eq := rfl
  sorted := (nondecreasing_iff _).1 (by unfold Nondecreasing; simp [rSpline, rKnots]; norm_num)

/-- Both derivative and integral hypotheses are met at times in different segments. -/
example : Inside rSpline 3 2 ∧ tMin rSpline = .ok 0 ∧ tMax rSpline = .ok 4 ∧
    Bracketed rSpline 2 ∧ Bracketed rSpline (7 / 2) ∧ Resolved rSpline 2 := by
  have h2 : Inside rSpline 3 2 := by
    refine ⟨?_, ?_, ?_, ?_, Or.inl ?_⟩ <;> simp [rSpline, rKnots, knotAt, snapTol] <;> norm_num
  refine ⟨h2, ?_, ?_, ?_, ?_, ?_⟩
  · rw [rSpline_wf.tMin_eq]; simp [rSpline, rKnots, knotAt]
  · rw [rSpline_wf.tMax_eq]; simp [rSpline, rKnots, knotAt]
  · left; simp [Snapped, rSpline, rKnots, knotAt, snapTol]; norm_num
  · right; simp [rSpline, rKnots, knotAt]; norm_num
  · intro p hp
    rw [computeTIndex_inside rSpline_wf h2] at hp
    cases hp
    right
    simp [rSpline, rKnots, knotAt, remTol]
    norm_num

end Real

/-- The constant spline `1` over ℚ with a proper last segment. -/
def oneSpline : Spline ℚ 1 :=
  ⟨2, uniKnots, [fun _ => 1, fun _ => 1, fun _ => 1, fun _ => 1], initBasis 2 uniKnots⟩

/-- C46 is not exact: the integral of the constant `1` over `[1, 1 + 1e-17]` is returned as `0`
(although its value there is `1`), because remainders up to `1e-16` are dropped. -/
theorem C46_counterexample :
    (∃ v, evalD oneSpline 1 0 = .ok v ∧ v 0 = 1) ∧
    ∃ v, evalIntegral oneSpline 1 (1 + 1 / 100000000000000000) = .ok v ∧ v 0 = 0 := by
  constructor
  · obtain ⟨v, h1, h2⟩ := Out.okAnd_spec (x := evalD oneSpline 1 0)
      (P := fun v => decide (v 0 = 1)) (by decide +kernel)
    exact ⟨v, h1, of_decide_eq_true h2⟩
  · obtain ⟨v, h1, h2⟩ := Out.okAnd_spec
      (x := evalIntegral oneSpline 1 (1 + 1 / 100000000000000000))
      (P := fun v => decide (v 0 = 0)) (by decide +kernel)
    exact ⟨v, h1, of_decide_eq_true h2⟩

end Kalibr.BSpline
