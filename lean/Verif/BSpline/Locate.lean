import Verif.BSpline.Lemmas
import Mathlib.Algebra.Order.AbsoluteValue.Basic

/-! Lemmas about locating a time in the knot sequence and about the window that is read. -/

namespace Kalibr.BSpline

open Finset

variable {K : Type} [Field K] [LinearOrder K] [IsStrictOrderedRing K] {D : Nat}

/-- A spline as the interface builds it from a nondecreasing knot sequence. -/
structure WellFormed (s : Spline K D) : Prop where
  order_ge : 2 ≤ s.order
  enough : 2 * s.order ≤ s.knots.length
  count : s.coeffs.length + s.order = s.knots.length
  basis_eq : s.basis = initBasis s.order s.knots
  sorted : SortedBelow (knotAt s.knots) s.knots.length

theorem minimumKnotsRequired_eq (k : Nat) (hk : 1 ≤ k) : minimumKnotsRequired k = 2 * k := by
  unfold minimumKnotsRequired numKnotsRequired numCoefficientsRequired; omega

theorem knotAt_getElem (τ : List K) (i : Nat) (h : i < τ.length) : knotAt τ i = τ[i] := by
  simp [knotAt, List.getD_eq_getElem?_getD, List.getElem?_eq_getElem h]

theorem upperBound_spec (τ : List K) (t : K) (a b : Nat) (hs : SortedBelow (knotAt τ) τ.length)
    (hb : b < τ.length) (hab : a < τ.length) (ha : knotAt τ a ≤ t) (htb : t < knotAt τ b) :
    a < upperBound τ t ∧ upperBound τ t ≤ b ∧ upperBound τ t < τ.length ∧
    knotAt τ (upperBound τ t - 1) ≤ t ∧ t < knotAt τ (upperBound τ t) := by
  have hlt : upperBound τ t < τ.length := by
    apply List.findIdx_lt_length_of_exists
    exact ⟨τ[b], List.getElem_mem hb, by rw [knotAt_getElem τ b hb] at htb; simpa using htb⟩
  have h1 : t < knotAt τ (upperBound τ t) := by
    rw [knotAt_getElem τ _ hlt]
    have := List.findIdx_getElem (xs := τ) (p := fun x => decide (t < x)) (w := hlt)
    exact of_decide_eq_true this
  have hnot : ∀ j, j < upperBound τ t → knotAt τ j ≤ t := by
    intro j hj
    have := List.not_of_lt_findIdx (xs := τ) (p := fun x => decide (t < x)) hj
    rw [knotAt_getElem τ j (by omega)]
    simpa using this
  have h2 : a < upperBound τ t := by
    by_contra hc
    have := hs (upperBound τ t) a (by omega) hab
    linarith
  have h3 : upperBound τ t ≤ b := by
    by_contra hc
    have := hnot b (by omega)
    linarith
  exact ⟨h2, h3, hlt, hnot _ (by omega), h1⟩

variable {s : Spline K D}

theorem WellFormed.tMin_eq (w : WellFormed s) : tMin s = .ok (knotAt s.knots (s.order - 1)) := by
  have := w.order_ge; have := w.enough
  unfold tMin
  rw [minimumKnotsRequired_eq _ (by omega), if_neg (by omega)]

theorem WellFormed.tMax_eq (w : WellFormed s) :
    tMax s = .ok (knotAt s.knots (s.knots.length - s.order)) := by
  have := w.order_ge; have := w.enough
  unfold tMax
  rw [minimumKnotsRequired_eq _ (by omega), if_neg (by omega)]

/-- The time is within the snapping tolerance of the end of the spline. -/
def Snapped (s : Spline K D) (t : K) : Prop :=
  |knotAt s.knots (s.knots.length - s.order) - t| < snapTol

theorem snapTol_pos : (0 : K) < snapTol := by unfold snapTol; positivity

theorem snapped_end : Snapped s (knotAt s.knots (s.knots.length - s.order)) := by
  unfold Snapped; simpa using snapTol_pos

theorem computeTIndex_low (w : WellFormed s) {t : K} (h : t < knotAt s.knots (s.order - 1)) :
    computeTIndex s t = .raise := by
  unfold computeTIndex
  rw [w.tMin_eq]; simp [h]

theorem computeTIndex_high (w : WellFormed s) {t : K}
    (h : knotAt s.knots (s.knots.length - s.order) < t) (hns : ¬ Snapped s t) :
    computeTIndex s t = .raise := by
  unfold computeTIndex
  have h1 : ¬ t < knotAt s.knots (s.order - 1) := by
    have := w.sorted (s.order - 1) (s.knots.length - s.order) (by have := w.enough; omega)
      (by have := w.enough; have := w.order_ge; omega)
    exact not_lt.2 (by linarith)
  rw [w.tMin_eq, w.tMax_eq]
  simp only [Out.ok_bind, if_neg h1]
  unfold Snapped at hns
  rw [if_neg hns, if_pos h]

theorem computeTIndex_snapped (w : WellFormed s) {t : K} (h : knotAt s.knots (s.order - 1) ≤ t)
    (hs : Snapped s t) :
    computeTIndex s t = .ok (knotAt s.knots (s.knots.length - s.order) -
      knotAt s.knots (s.knots.length - s.order - 1), s.knots.length - s.order - 1) := by
  have := w.order_ge; have := w.enough
  unfold computeTIndex
  rw [w.tMin_eq, w.tMax_eq]
  unfold Snapped at hs
  simp only [Out.ok_bind, if_neg (not_lt.2 h), if_pos hs, lt_irrefl, if_false, if_true]
  rw [if_neg (by omega)]

theorem computeTIndex_mid (w : WellFormed s) {t : K} (h : knotAt s.knots (s.order - 1) ≤ t)
    (h' : t < knotAt s.knots (s.knots.length - s.order)) (hns : ¬ Snapped s t) :
    ∃ idx, s.order - 1 ≤ idx ∧ idx < s.knots.length - s.order ∧
      knotAt s.knots idx ≤ t ∧ t < knotAt s.knots (idx + 1) ∧
      computeTIndex s t = .ok (knotAt s.knots (idx + 1) - knotAt s.knots idx, idx) := by
  have := w.order_ge; have := w.enough
  obtain ⟨h1, h2, h3, h4, h5⟩ := upperBound_spec s.knots t (s.order - 1) (s.knots.length - s.order)
    w.sorted (by omega) (by omega) h h'
  refine ⟨upperBound s.knots t - 1, by omega, by omega, h4, ?_, ?_⟩
  · rwa [show upperBound s.knots t - 1 + 1 = upperBound s.knots t by omega]
  · unfold computeTIndex
    rw [w.tMin_eq, w.tMax_eq]
    unfold Snapped at hns
    simp only [Out.ok_bind, if_neg (not_lt.2 h), if_neg hns, if_neg (not_lt.2 h'.le),
      if_neg (ne_of_lt h')]
    rw [if_neg (by omega), show upperBound s.knots t - 1 + 1 = upperBound s.knots t by omega]

/-- Where a time that is accepted lands: the last segment when snapped, a bracketing one otherwise. -/
theorem computeTIndex_ok (w : WellFormed s) {t : K} {p : K × Nat} (h : computeTIndex s t = .ok p) :
    knotAt s.knots (s.order - 1) ≤ t ∧
    s.order - 1 ≤ p.2 ∧ p.2 < s.knots.length - s.order ∧
    p.1 = knotAt s.knots (p.2 + 1) - knotAt s.knots p.2 ∧
    ((Snapped s t ∧ p.2 + 1 = s.knots.length - s.order) ∨
      (¬ Snapped s t ∧ knotAt s.knots p.2 ≤ t ∧ t < knotAt s.knots (p.2 + 1))) := by
  have hk := w.order_ge; have hn := w.enough
  by_cases h1 : t < knotAt s.knots (s.order - 1)
  · rw [computeTIndex_low w h1] at h; cases h
  push Not at h1
  by_cases h2 : Snapped s t
  · rw [computeTIndex_snapped w h1 h2] at h
    cases h
    simp only
    refine ⟨h1, by omega, by omega, ?_, Or.inl ⟨h2, by omega⟩⟩
    rw [show s.knots.length - s.order - 1 + 1 = s.knots.length - s.order by omega]
  · by_cases h3 : t < knotAt s.knots (s.knots.length - s.order)
    · obtain ⟨idx, g1, g2, g3, g4, g5⟩ := computeTIndex_mid w h1 h3 h2
      rw [g5] at h
      cases h
      exact ⟨h1, g1, g2, rfl, Or.inr ⟨h2, g3, g4⟩⟩
    · push Not at h3
      rcases lt_or_eq_of_le h3 with h3 | h3
      · rw [computeTIndex_high w h3 h2] at h; cases h
      · exfalso; apply h2; rw [← h3]; exact snapped_end

/-- An accepted time is never undefined behaviour. -/
theorem computeTIndex_ne_ub (w : WellFormed s) (t : K) : computeTIndex s t ≠ .ub := by
  by_cases h1 : t < knotAt s.knots (s.order - 1)
  · rw [computeTIndex_low w h1]; simp
  push Not at h1
  by_cases h2 : Snapped s t
  · rw [computeTIndex_snapped w h1 h2]; simp
  · by_cases h3 : t < knotAt s.knots (s.knots.length - s.order)
    · obtain ⟨idx, g1, g2, g3, g4, g5⟩ := computeTIndex_mid w h1 h3 h2
      rw [g5]; simp
    · push Not at h3
      rcases lt_or_eq_of_le h3 with h3 | h3
      · rw [computeTIndex_high w h3 h2]; simp
      · exfalso; apply h2; rw [← h3]; exact snapped_end

/-- The basis matrix of a segment. -/
theorem WellFormed.basis_get (w : WellFormed s) {idx : Nat} (h1 : s.order - 1 ≤ idx)
    (h2 : idx < s.knots.length - s.order) :
    s.basis[idx + 1 - s.order]? = some (basisM (knotAt s.knots) s.order idx) := by
  have := w.order_ge; have := w.enough
  rw [w.basis_eq]
  unfold initBasis
  rw [List.getElem?_map, List.getElem?_range (by unfold numValidTimeSegments; omega)]
  simp only [Option.map_some, Option.some.injEq]
  rw [show idx + 1 - s.order + s.order - 1 = idx by omega]

/-- The normalised time. -/
noncomputable def normTime (s : Spline K D) (t : K) (idx : Nat) : K :=
  if knotAt s.knots (idx + 1) - knotAt s.knots idx ≤ 0 then 0
  else (t - knotAt s.knots idx) / (knotAt s.knots (idx + 1) - knotAt s.knots idx)

theorem locate_of (w : WellFormed s) {t : K} {p : K × Nat} (h : computeTIndex s t = .ok p) :
    locate s t = .ok (normTime s t p.2, p.2, p.2 + 1 - s.order) := by
  obtain ⟨_, h1, h2, h3, _⟩ := computeTIndex_ok w h
  unfold locate computeUAndTIndex
  rw [h]
  unfold normTime
  rw [← h3]
  simp only [Out.ok_bind]
  by_cases hp : p.1 ≤ 0
  · simp only [if_pos hp, Out.pure_eq, Out.ok_bind]
    rw [if_neg (by omega)]
  · simp only [if_neg hp, Out.pure_eq, Out.ok_bind]
    rw [if_neg (by omega)]

theorem localBi_of (w : WellFormed s) {t : K} {p : K × Nat} (h : computeTIndex s t = .ok p) (d : Nat) :
    localBi s t d = .ok (weights s.order (basisM (knotAt s.knots) s.order p.2)
      (computeU (knotAt s.knots) s.order (normTime s t p.2) p.2 d)) := by
  obtain ⟨_, h1, h2, h3, _⟩ := computeTIndex_ok w h
  unfold localBi
  rw [locate_of w h]
  simp only [Out.ok_bind]
  rw [w.basis_get h1 h2]
  rfl

theorem evalD_of (w : WellFormed s) {t : K} {p : K × Nat} (h : computeTIndex s t = .ok p) (d : Nat) :
    evalD s t d = .ok (fun e => ∑ c ∈ range s.order,
      (s.coeffs.getD (p.2 + 1 - s.order + c) 0) e *
      weights s.order (basisM (knotAt s.knots) s.order p.2)
      (computeU (knotAt s.knots) s.order (normTime s t p.2) p.2 d) c) := by
  obtain ⟨_, h1, h2, h3, _⟩ := computeTIndex_ok w h
  have := w.order_ge; have := w.enough; have := w.count
  unfold evalD
  rw [locate_of w h]
  simp only [Out.ok_bind]
  rw [localBi_of w h]
  simp only [Out.ok_bind, combine]
  rw [if_pos (by omega)]
  rfl

theorem evalD_raise {t : K} (h : computeTIndex s t = .raise) (d : Nat) : evalD s t d = .raise := by
  unfold evalD locate computeUAndTIndex
  rw [h]; simp

/-- On a proper segment the order-0 weights are the local basis polynomials. -/
theorem weights_eq_bw (τ : Nat → K) (k i c : Nat) (u : K) (h : τ i < τ (i + 1)) :
    weights k (basisM τ k i) (computeU τ k u i 0) c = bw τ k i c u := by
  unfold weights bw computeU
  apply sum_congr rfl
  intro r hr
  have hr' : r < k := by simpa using hr
  have h2 : 0 < τ (i + 1) - τ i := by linarith
  simp [h2, hr', dmul]
  ring

theorem normTime_spec {t : K} {idx : Nat} (h : knotAt s.knots idx < knotAt s.knots (idx + 1)) :
    t = knotAt s.knots idx + normTime s t idx *
      (knotAt s.knots (idx + 1) - knotAt s.knots idx) := by
  have : 0 < knotAt s.knots (idx + 1) - knotAt s.knots idx := by linarith
  unfold normTime
  rw [if_neg (not_le.2 this), div_mul_cancel₀ _ (ne_of_gt this)]
  ring

end Kalibr.BSpline
