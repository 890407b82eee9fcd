import Verif.Fit.Model
import Verif.BSpline.Props
import Mathlib.Tactic.LinearCombination

/-! Lemmas on setting knots, on uniform knots, and the properties of `initConstantSpline`. -/

namespace Kalibr.Fit

open BSpline Finset

variable {K : Type} [Field K] [LinearOrder K] [IsStrictOrderedRing K] {D : Nat} {s : Spline K D}

/-- Nondecreasing knots that are at least as many as the old ones are accepted. -/
theorem set_ok (hk : 2 ≤ s.order) {knots : List K} {coeffs : List (Fin D → K)}
    (hlen : s.knots.length ≤ knots.length) (h1 : 2 * s.order ≤ knots.length)
    (hs : SortedBelow (knotAt knots) knots.length) (h3 : coeffs.length + s.order = knots.length) :
    setKnotsAndCoefficients s knots coeffs = .ok ⟨s.order, knots, coeffs, initBasis s.order knots⟩ ∧
    WellFormed (⟨s.order, knots, coeffs, initBasis s.order knots⟩ : Spline K D) := by
  have hmin := minimumKnotsRequired_eq s.order (by omega)
  have hl := verifyLoop_spec knots (List.range' 1 (s.knots.length - 1))
    (fun i hi => by rw [List.mem_range'_1] at hi; omega)
  have hok := hl.1 (fun i hi => by
      rw [List.mem_range'_1] at hi; exact hs _ _ (by omega) (by omega))
  refine ⟨?_, hk, h1, h3, rfl, hs⟩
  unfold setKnotsAndCoefficients verifyKnotSequence
  rw [hmin, if_neg (by omega), hok]
  simp only [Out.ok_bind]
  rw [if_neg]
  · rfl
  · unfold numCoefficientsRequired numValidTimeSegments; omega

theorem knots_required (order n : Nat) : numKnotsRequired order n = n + order - 1 + order := rfl

theorem knotAt_map (f : Nat → K) (n i : Nat) (h : i < n) : knotAt ((List.range n).map f) i = f i := by
  rw [knotAt_getElem _ _ (by simpa using h)]
  simp

theorem knotAt_uniform {order n : Nat} {t0 dt : K} {i : Nat} (h : i < n) :
    knotAt (uniformKnots order n t0 dt) i = t0 + ((i : K) - order + 1) * dt := knotAt_map _ n i h

theorem uniform_length (order n : Nat) (t0 dt : K) : (uniformKnots order n t0 dt).length = n := by
  simp [uniformKnots]

theorem uniform_sorted {order n : Nat} {t0 dt : K} (h : 0 ≤ dt) :
    SortedBelow (knotAt (uniformKnots order n t0 dt)) (uniformKnots order n t0 dt).length := by
  intro a b hab hb
  rw [uniform_length] at hb
  rw [knotAt_uniform (by omega), knotAt_uniform hb]
  have : (a : K) ≤ b := by exact_mod_cast hab
  have : ((a : K) - order + 1) * dt ≤ ((b : K) - order + 1) * dt :=
    mul_le_mul_of_nonneg_right (by linarith) h
  linarith

/-- The equally spaced knots of `initConstantSpline` are the uniform knots of the other functions. -/
theorem linSpaced_eq {order n : Nat} {lo hi : K} (ho : 2 ≤ order) (hn : 1 ≤ n) :
    linSpaced (numKnotsRequired order n) (lo - ((order : K) - 1) * ((hi - lo) / n))
      (hi + ((order : K) - 1) * ((hi - lo) / n)) =
    uniformKnots order (numKnotsRequired order n) lo ((hi - lo) / n) := by
  unfold linSpaced uniformKnots
  apply List.map_congr_left
  intro i _
  have h0 : (n : K) ≠ 0 := by
    have : (0 : K) < n := by exact_mod_cast hn
    exact this.ne'
  have h1 : ((numKnotsRequired order n : Nat) : K) - 1 = n + 2 * ((order : K) - 1) := by
    have e : numKnotsRequired order n + 2 = n + 2 * order + 1 := by
      unfold numKnotsRequired numCoefficientsRequired; omega
    have := congrArg (Nat.cast : Nat → K) e
    push_cast at this
    linear_combination this
  have h2 : (n : K) + 2 * ((order : K) - 1) ≠ 0 := by
    have a : (0 : K) < n := by exact_mod_cast hn
    have b : (2 : K) ≤ order := by exact_mod_cast ho
    intro h
    linarith
  rw [h1]
  have e : hi + ((order : K) - 1) * ((hi - lo) / n) - (lo - ((order : K) - 1) * ((hi - lo) / n)) =
      (n + 2 * ((order : K) - 1)) * ((hi - lo) / n) := by
    field_simp
    ring
  rw [e, mul_div_cancel_left₀ _ h2]
  ring

/-- The end of a uniform knot sequence. -/
theorem uniform_end {order n : Nat} {lo hi : K} (hn : 1 ≤ n) :
    lo + (((numKnotsRequired order n - order : Nat) : K) - order + 1) * ((hi - lo) / n) = hi := by
  have h0 : (n : K) ≠ 0 := by
    have : (0 : K) < n := by exact_mod_cast hn
    exact this.ne'
  have e : numKnotsRequired order n - order + 1 = n + order := by
    unfold numKnotsRequired numCoefficientsRequired; omega
  have := congrArg (Nat.cast : Nat → K) e
  push_cast at this
  have e2 : ((numKnotsRequired order n - order : Nat) : K) - order + 1 = n := by linear_combination this
  rw [e2, mul_div_cancel₀ _ h0]
  ring

/-- Setting a uniform knot sequence from `lo` to `hi`. -/
theorem set_uniform (hk : 2 ≤ s.order) {n : Nat} (hn : 1 ≤ n) {lo hi : K} (h : lo ≤ hi)
    (hlen : s.knots.length ≤ n + 2 * s.order - 1) {c : List (Fin D → K)}
    (hc : c.length = numCoefficientsRequired s.order n) :
    ∃ s' : Spline K D, setKnotsAndCoefficients s
        (uniformKnots s.order (numKnotsRequired s.order n) lo ((hi - lo) / n)) c = .ok s' ∧
      WellFormed s' ∧ s'.order = s.order ∧ s'.coeffs = c ∧
      s'.knots = uniformKnots s.order (numKnotsRequired s.order n) lo ((hi - lo) / n) ∧
      tMin s' = .ok lo ∧ tMax s' = .ok hi ∧ numValidTimeSegments s'.order s'.knots.length = n := by
  have hN : (0 : K) < n := by exact_mod_cast hn
  have hK : numKnotsRequired s.order n = n + 2 * s.order - 1 := by
    unfold numKnotsRequired numCoefficientsRequired; omega
  have hC : numCoefficientsRequired s.order n = n + s.order - 1 := rfl
  obtain ⟨h1, w⟩ := set_ok (s := s) hk
    (knots := uniformKnots s.order (numKnotsRequired s.order n) lo ((hi - lo) / n)) (coeffs := c)
    (by rw [uniform_length, hK]; exact hlen) (by rw [uniform_length, hK]; omega)
    (uniform_sorted (div_nonneg (by linarith) hN.le)) (by rw [uniform_length, hK, hc, hC]; omega)
  refine ⟨_, h1, w, rfl, rfl, rfl, ?_, ?_, ?_⟩
  · rw [w.tMin_eq]
    simp only
    rw [knotAt_uniform (by omega)]
    have : ((s.order - 1 : Nat) : K) = s.order - 1 := by
      rw [Nat.cast_sub (by omega)]; simp
    rw [this]
    congr 1
    ring
  · rw [w.tMax_eq]
    simp only
    rw [uniform_length, knotAt_uniform (by omega), uniform_end hn]
  · simp only [uniform_length]
    unfold numValidTimeSegments
    omega

/-- On a uniform knot sequence of positive spacing every segment has positive length. -/
theorem uniform_step {order n i : Nat} {t0 dt : K} (h : 0 < dt) (hi : i + 1 < n) :
    knotAt (uniformKnots order n t0 dt) i < knotAt (uniformKnots order n t0 dt) (i + 1) := by
  rw [knotAt_uniform (by omega), knotAt_uniform hi]
  push_cast
  nlinarith

/-! ## C109: constant splines -/

/-- **C109**.  For every order, every interval of positive length, every number of segments and every constant,
`initConstantSpline` on an object that does not have more knots than the new spline succeeds: the spline is
well formed, its valid times are the interval, it has the number of segments, its value at every valid time is
the constant and all its derivatives vanish. -/
theorem C109_constant_partial (hk : 2 ≤ s.order) (hD : 1 ≤ D) {lo hi : K} (h : lo < hi) {n : Nat} (hn : 1 ≤ n)
    (hlen : s.knots.length ≤ n + 2 * s.order - 1) (c : Fin D → K) :
    ∃ s', initConstantSpline s lo hi n c = .ok s' ∧ WellFormed s' ∧ s'.order = s.order ∧
      tMin s' = .ok lo ∧ tMax s' = .ok hi ∧ numValidTimeSegments s'.order s'.knots.length = n ∧
      (∀ x ∈ s'.coeffs, x = c) ∧
      ∀ t, lo ≤ t → t ≤ hi → evalD s' t 0 = .ok c ∧ ∀ d, 1 ≤ d → evalD s' t d = .ok 0 := by
  have hN : (0 : K) < n := by exact_mod_cast hn
  obtain ⟨s', e, w, ho, hc, hkn, hlo, hhi, hseg⟩ := set_uniform (s := s) hk hn h.le hlen
    (c := List.replicate (numCoefficientsRequired s.order n) c) (by simp)
  have hall : ∀ x ∈ s'.coeffs, x = c := by
    intro x hx
    rw [hc] at hx
    exact (List.mem_replicate.1 hx).2
  have hK : numKnotsRequired s.order n = n + 2 * s.order - 1 := by
    unfold numKnotsRequired numCoefficientsRequired; omega
  have hreg : ∀ t, Regular s' t := by
    intro t
    right
    rw [hkn, uniform_length, ho]
    have := uniform_step (order := s.order) (n := numKnotsRequired s.order n) (t0 := lo)
      (i := numKnotsRequired s.order n - s.order - 1) (div_pos (sub_pos.2 h) hN) (by omega)
    rwa [show numKnotsRequired s.order n - s.order - 1 + 1 = numKnotsRequired s.order n - s.order by omega]
      at this
  refine ⟨s', ?_, w, ho, hlo, hhi, hseg, hall, fun t h1 h2 => ⟨?_, fun d hd => ?_⟩⟩
  · unfold initConstantSpline
    rw [if_neg (by simpa using h), if_neg (by omega), if_neg (by omega)]
    simp only
    rw [linSpaced_eq hk hn, e]
  · exact C41_constant_partial w hlo hhi h1 h2 (hreg t) c hall
  · obtain ⟨p, hp⟩ := accepted w hlo hhi h1 h2
    obtain ⟨_, a1, a2, _, _⟩ := computeTIndex_ok w hp
    have hk' := w.order_ge; have hn' := w.enough; have hcc := w.count
    rw [evalD_of w hp]
    congr 1
    funext e
    have : ∀ j ∈ range s'.order, (s'.coeffs.getD (p.2 + 1 - s'.order + j) 0) e *
        weights s'.order (basisM (knotAt s'.knots) s'.order p.2)
        (computeU (knotAt s'.knots) s'.order (normTime s' t p.2) p.2 d) j =
        c e * weights s'.order (basisM (knotAt s'.knots) s'.order p.2)
        (computeU (knotAt s'.knots) s'.order (normTime s' t p.2) p.2 d) j := by
      intro j hj
      have hj : j < s'.order := by simpa using hj
      have hl : p.2 + 1 - s'.order + j < s'.coeffs.length := by omega
      rw [List.getD_eq_getElem?_getD, List.getElem?_eq_getElem hl, Option.getD_some,
        hall _ (List.getElem_mem hl)]
    rw [sum_congr rfl this, ← mul_sum, computeU_sum _ _ _ _ _ (by omega) (seg_pos w hp (hreg t)),
      if_neg (by omega), mul_zero]
    rfl

/-- **C109** (what is rejected).  An interval that is empty, no segments or no components raise. -/
theorem C109_rejects (lo hi : K) (n : Nat) (c : Fin D → K) (h : hi ≤ lo ∨ n = 0 ∨ D = 0) :
    initConstantSpline s lo hi n c = .raise := by
  unfold initConstantSpline
  by_cases h1 : lo < hi
  · by_cases h2 : n < 1
    · rw [if_neg (by simpa using h1), if_pos h2]
    · rw [if_neg (by simpa using h1), if_neg h2, if_pos]
      rcases h with h | h | h
      · exact absurd h1 (not_lt.2 h)
      · omega
      · omega
  · rw [if_pos h1]

/-- A new spline of order 3 meets the hypotheses. -/
example : ∃ s', initConstantSpline (⟨3, [], [], []⟩ : Spline ℚ 2) 1 3 4 ![5, 7] = .ok s' ∧ WellFormed s' ∧
    evalD s' 2 0 = .ok ![5, 7] := by
  obtain ⟨s', h1, h2, -, -, -, -, -, h3⟩ := C109_constant_partial (s := (⟨3, [], [], []⟩ : Spline ℚ 2))
    (by decide) (by decide) (lo := 1) (hi := 3) (by norm_num) (n := 4) (by norm_num) (by simp) ![5, 7]
  exact ⟨s', h1, h2, (h3 2 (by norm_num) (by norm_num)).1⟩

/-- **C109** is false without the bound on the knots the object already has: the check of the new knots runs
over as many knots as the object has, so that a spline with more knots cannot be initialised again; the check
reads behind the end of the new knots. -/
theorem C109_counterexample :
    ∃ s : Spline ℚ 1, WellFormed s ∧ initConstantSpline s 0 1 1 (fun _ => 1) = .ub := by
  refine ⟨⟨2, [0, 1, 2, 3, 4, 5], [0, 0, 0, 0], initBasis 2 [0, 1, 2, 3, 4, 5]⟩, ⟨by decide, by decide,
    by decide, rfl, ?_⟩, ?_⟩
  · apply adjacent_sorted
    decide +kernel
  · have h : ∀ s : Spline ℚ 1, s.order = 2 → s.knots.length = 6 →
        setKnotsAndCoefficients s [-1, 0, 1, 2] [fun _ => 1, fun _ => 1] = .ub := by
      intro s h1 h2
      unfold setKnotsAndCoefficients verifyKnotSequence
      rw [h1, h2]
      rfl
    unfold initConstantSpline
    have e : linSpaced (numKnotsRequired 2 1) ((0 : ℚ) - (((2 : Nat) : ℚ) - 1) * ((1 - 0) / ((1 : Nat) : ℚ)))
        (1 + (((2 : Nat) : ℚ) - 1) * ((1 - 0) / ((1 : Nat) : ℚ))) = [-1, 0, 1, 2] := by decide +kernel
    simp only [e]
    rw [if_neg (by norm_num), if_neg (by norm_num), if_neg (by norm_num)]
    exact h _ rfl rfl

end Kalibr.Fit
