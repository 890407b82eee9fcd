import Verif.Fit.Basic
import Verif.Motion.Algebra
import Mathlib.Data.List.GetD

/-! C110: reading and writing the coefficients as stacked vectors. -/

namespace Kalibr.Fit

open BSpline Finset

variable {K : Type} [Field K] [LinearOrder K] [IsStrictOrderedRing K] {D : Nat} {s : Spline K D}

theorem stack_length (l : List (Fin D → K)) : (l.flatMap List.ofFn).length = l.length * D := by
  induction l with
  | nil => simp
  | cons a l ih => simp [ih]; ring

theorem stack_get (l : List (Fin D → K)) {m : Nat} (hm : m < l.length) (e : Fin D) :
    (l.flatMap List.ofFn).getD (m * D + e) 0 = l.getD m 0 e := by
  induction l generalizing m with
  | nil => simp at hm
  | cons a l ih =>
    rw [List.flatMap_cons]
    cases m with
    | zero =>
      rw [List.getD_append _ _ _ _ (by simp)]
      simp [List.getD_eq_getElem?_getD, List.getElem?_ofFn]
    | succ m =>
      rw [List.getD_append_right _ _ _ _ (by simp [Nat.succ_mul]; omega)]
      have hl : (List.ofFn a).length = D := by simp
      rw [hl, show (m + 1) * D + (e : Nat) - D = m * D + e by rw [Nat.succ_mul]; omega,
        ih (by simpa using hm)]
      simp

theorem list_ext_getD {l l' : List K} {n : Nat} (h : l.length = n) (h' : l'.length = n)
    (he : ∀ i, i < n → l.getD i 0 = l'.getD i 0) : l = l' := by
  apply List.ext_getElem (by omega)
  intro i h1 h2
  have := he i (by omega)
  simpa [List.getD_eq_getElem?_getD, h1, h2] using this

/-- Two stacked vectors of `n` blocks that agree entry by entry are equal. -/
theorem stack_ext {l l' : List K} {n : Nat} (h : l.length = n * D) (h' : l'.length = n * D)
    (he : ∀ m, m < n → ∀ e : Fin D, l.getD (m * D + e) 0 = l'.getD (m * D + e) 0) : l = l' := by
  apply list_ext_getD h h'
  intro i hi
  have hD : 0 < D := by
    rcases Nat.eq_zero_or_pos D with h0 | h0
    · subst h0; simp at hi
    · exact h0
  have h1 : i / D < n := Nat.div_lt_of_lt_mul (by rwa [Nat.mul_comm])
  have := he (i / D) h1 ⟨i % D, Nat.mod_lt _ hD⟩
  simp only at this
  rwa [Nat.mul_comm, Nat.div_add_mod] at this

theorem unstack_stack (l : List K) (n : Nat) (h : l.length = n * D) :
    ((List.range n).map (segmentAt l : Nat → Fin D → K)).flatMap List.ofFn = l := by
  apply stack_ext (n := n) (D := D) (by rw [stack_length]; simp) h
  intro m hm e
  rw [stack_get _ (by simpa using hm)]
  simp [List.getD_eq_getElem?_getD, hm, segmentAt]

theorem stack_unstack (c : List (Fin D → K)) :
    (List.range c.length).map (segmentAt (c.flatMap List.ofFn)) = c := by
  apply List.ext_getElem (by simp)
  intro i h1 h2
  funext e
  simp only [List.getElem_map, List.getElem_range, segmentAt]
  rw [stack_get c h2]
  simp [List.getD_eq_getElem?_getD, h2]

/-! ## The whole vector -/

/-- **C110** (writing).  `setCoefficientVector` accepts exactly the vectors of the size of the coefficient
matrix; afterwards `coefficientVector` returns the vector, and nothing else has changed. -/
theorem C110_set (c : List K) :
    (c.length ≠ s.coeffs.length * D → setCoefficientVector s c = .raise) ∧
    (c.length = s.coeffs.length * D → ∃ s', setCoefficientVector s c = .ok s' ∧ coefficientVector s' = c ∧
      s'.coeffs.length = s.coeffs.length ∧ s'.order = s.order ∧ s'.knots = s.knots ∧ s'.basis = s.basis ∧
      ∀ m, m < s.coeffs.length → ∀ e : Fin D, s'.coeffs.getD m 0 e = c.getD (m * D + e) 0) := by
  unfold setCoefficientVector
  rw [Nat.mul_comm D]
  refine ⟨fun h => if_pos h, fun h => ?_⟩
  rw [if_neg (by simpa using h)]
  refine ⟨_, rfl, unstack_stack c _ h, by simp, rfl, rfl, rfl, ?_⟩
  intro m hm e
  simp [List.getD_eq_getElem?_getD, hm, segmentAt]

/-- **C110** (reading).  Writing what was read changes nothing. -/
theorem C110_get : setCoefficientVector s (coefficientVector s) = .ok s := by
  unfold setCoefficientVector coefficientVector
  rw [if_neg (by rw [stack_length, Nat.mul_comm]; simp), stack_unstack]

/-- **C110** (the matrix).  `setCoefficientMatrix` replaces the coefficients by as many new ones. -/
theorem C110_matrix (c : List (Fin D → K)) :
    (c.length = s.coeffs.length → setCoefficientMatrix s c = .ok { s with coeffs := c }) ∧
    (c.length ≠ s.coeffs.length → setCoefficientMatrix s c = .raise) := by
  unfold setCoefficientMatrix
  exact ⟨fun h => if_neg (by simpa using h.symm), fun h => if_pos fun h' => h h'.symm⟩

/-! ## The vector of a segment -/

theorem localIndex_of (w : WellFormed s) {t : K} {p : K × Nat} (hp : computeTIndex s t = .ok p) :
    localIndex s t = .ok (p.2 + 1 - s.order) ∧ p.2 + 1 - s.order + s.order ≤ s.coeffs.length := by
  obtain ⟨_, a1, a2, _, _⟩ := computeTIndex_ok w hp
  have := w.order_ge; have := w.enough; have := w.count
  unfold localIndex
  rw [hp, Out.ok_bind, if_neg (by omega)]
  exact ⟨rfl, by omega⟩

theorem window_of {c : List (Fin D → K)} {k b : Nat} (h : b + k ≤ c.length) :
    window k c b = .ok (((c.drop b).take k).flatMap List.ofFn) ∧
    (((c.drop b).take k).flatMap List.ofFn).length = k * D ∧
    ∀ j, j < k → ∀ e : Fin D,
      (((c.drop b).take k).flatMap List.ofFn).getD (j * D + e) 0 = c.getD (b + j) 0 e := by
  have hl : ((c.drop b).take k).length = k := by simp; omega
  refine ⟨?_, ?_, ?_⟩
  · unfold window; rw [if_neg (by omega)]
  · rw [stack_length, hl]
  · intro j hj e
    rw [stack_get _ (by omega)]
    simp [List.getD_eq_getElem?_getD, hj]

/-- **C110** (local vectors).  At every valid time the local coefficient vector exists and consists of the
entries of the coefficient vector at the local indices; the indices exist in the coefficient vector, and are
those of the `order` coefficients that `localVvCoefficientVectorIndices` returns. -/
theorem C110_local (w : WellFormed s) {lo hi t : K} (hlo : tMin s = .ok lo) (hhi : tMax s = .ok hi)
    (h1 : lo ≤ t) (h2 : t ≤ hi) :
    ∃ v I J, localCoefficientVector s t = .ok v ∧ localCoefficientVectorIndices s t = .ok I ∧
      localVvCoefficientVectorIndices s t = .ok J ∧
      v = I.map (fun i => (coefficientVector s).getD i 0) ∧
      (∀ i ∈ I, i < (coefficientVector s).length) ∧ J.length = s.order ∧ (∀ j ∈ J, j < s.coeffs.length) ∧
      I = J.flatMap fun j => (List.range D).map fun e => j * D + e := by
  obtain ⟨p, hp⟩ := accepted w hlo hhi h1 h2
  obtain ⟨hb, hB⟩ := localIndex_of w hp
  obtain ⟨e1, e2, e3⟩ := window_of hB
  refine ⟨_, _, _, by unfold localCoefficientVector; rw [hb, Out.ok_bind, e1],
    by unfold localCoefficientVectorIndices; rw [hb]; rfl,
    by unfold localVvCoefficientVectorIndices; rw [hb]; rfl, ?_, ?_, by simp, ?_, ?_⟩
  · apply stack_ext (n := s.order) (D := D) e2 (by simp)
    intro m hm e
    rw [e3 m hm e]
    have hlt : m * D + (e : Nat) < s.order * D := by
      have : (m + 1) * D ≤ s.order * D := Nat.mul_le_mul_right _ hm
      rw [Nat.succ_mul] at this
      omega
    have : ((List.range' ((p.2 + 1 - s.order) * D) (s.order * D)).map
        fun i => (coefficientVector s).getD i 0).getD (m * D + e) 0 =
        (coefficientVector s).getD ((p.2 + 1 - s.order) * D + (m * D + e)) 0 := by
      simp [List.getD_eq_getElem?_getD, hlt]
    rw [this, show (p.2 + 1 - s.order) * D + (m * D + (e : Nat)) = (p.2 + 1 - s.order + m) * D + e by ring]
    exact (stack_get s.coeffs (by omega) e).symm
  · intro i hi
    rw [List.mem_range'_1] at hi
    unfold coefficientVector
    rw [stack_length]
    have := Nat.mul_le_mul_right D hB
    rw [Nat.add_mul] at this
    omega
  · intro j hj
    rw [List.mem_range'_1] at hj
    omega
  · generalize p.2 + 1 - s.order = b
    generalize s.order = k
    induction k generalizing b with
    | zero => simp
    | succ k ih =>
      rw [List.range'_succ, List.flatMap_cons, ← ih, Nat.succ_mul, Nat.add_comm (k * D) D,
        ← List.range'_append_1]
      congr 1
      · rw [List.range'_eq_map_range]
      · rw [Nat.succ_mul]

/-- **C110** (evaluation).  At every valid time the value and every derivative is the basis matrix times the
local coefficient vector. -/
theorem C110_phi (w : WellFormed s) {lo hi t : K} (hlo : tMin s = .ok lo) (hhi : tMax s = .ok hi)
    (h1 : lo ≤ t) (h2 : t ≤ hi) (d : Nat) :
    ∃ P v, phi s t d = .ok P ∧ localCoefficientVector s t = .ok v ∧
      evalD s t d = .ok fun e => ∑ c ∈ range (s.order * D), P e c * v.getD c 0 := by
  obtain ⟨p, hp⟩ := accepted w hlo hhi h1 h2
  obtain ⟨hb, hB⟩ := localIndex_of w hp
  obtain ⟨e1, e2, e3⟩ := window_of hB
  refine ⟨_, _, by unfold phi; rw [localBi_of w hp]; rfl,
    by unfold localCoefficientVector; rw [hb, Out.ok_bind, e1], ?_⟩
  rw [evalD_of w hp]
  congr 1
  funext e
  rw [Motion.sum_range_mul]
  apply sum_congr rfl
  intro c hc
  have hc : c < s.order := by simpa using hc
  rw [sum_eq_single (e : Nat)]
  · rw [e3 c hc e, if_pos ⟨Motion.mod_lin e.2 c, by rwa [Motion.div_lin e.2 c]⟩, Motion.div_lin e.2 c]
    ring
  · intro b hb hne
    have hb : b < D := by simpa using hb
    rw [if_neg (by rw [Motion.mod_lin hb]; exact fun h => hne h.1), zero_mul]
  · intro h
    exact absurd (mem_range.2 e.2) h

/-- **C110** (writing a local vector).  A vector of another size raises.  Otherwise the local coefficient
vector at the time is the new one afterwards, and the coefficients that do not act at the time, the knots and
the valid times are as before. -/
theorem C110_set_local (w : WellFormed s) {lo hi t : K} (hlo : tMin s = .ok lo) (hhi : tMax s = .ok hi)
    (h1 : lo ≤ t) (h2 : t ≤ hi) (c : List K) :
    (c.length ≠ s.order * D → setLocalCoefficientVector s t c = .raise) ∧
    (c.length = s.order * D → ∃ s' J, setLocalCoefficientVector s t c = .ok s' ∧ WellFormed s' ∧
      localCoefficientVector s' t = .ok c ∧ s'.order = s.order ∧ s'.knots = s.knots ∧
      s'.coeffs.length = s.coeffs.length ∧ localVvCoefficientVectorIndices s t = .ok J ∧
      ∀ j, j ∉ J → s'.coeffs[j]? = s.coeffs[j]?) := by
  unfold setLocalCoefficientVector
  refine ⟨fun h => if_pos h, fun h => ?_⟩
  obtain ⟨p, hp⟩ := accepted w hlo hhi h1 h2
  obtain ⟨hb, hB⟩ := localIndex_of w hp
  rw [if_neg (by simpa using h), hb, Out.ok_bind, if_neg (by omega)]
  set b := p.2 + 1 - s.order with hbd
  set nc := s.coeffs.take b ++ (List.range s.order).map (segmentAt c) ++ s.coeffs.drop (b + s.order) with hnc
  have hlen : nc.length = s.coeffs.length := by simp [hnc]; omega
  have w' : WellFormed ({ s with coeffs := nc } : Spline K D) :=
    ⟨w.order_ge, w.enough, by rw [hlen]; exact w.count, w.basis_eq, w.sorted⟩
  have hp' : computeTIndex ({ s with coeffs := nc } : Spline K D) t = .ok p := hp
  obtain ⟨hb', hB'⟩ := localIndex_of w' hp'
  have hB'' : b + s.order ≤ nc.length := hB'
  obtain ⟨e1, e2, e3⟩ := window_of hB''
  refine ⟨_, _, rfl, w', ?_, rfl, rfl, hlen,
    by unfold localVvCoefficientVectorIndices; rw [hb]; rfl, ?_⟩
  · unfold localCoefficientVector
    rw [hb', Out.ok_bind]
    rw [show window ({ s with coeffs := nc } : Spline K D).order ({ s with coeffs := nc } : Spline K D).coeffs
      (p.2 + 1 - ({ s with coeffs := nc } : Spline K D).order) = window s.order nc b from rfl, e1]
    congr 1
    apply stack_ext (n := s.order) (D := D) e2 h
    intro m hm e
    rw [e3 m hm e, hnc]
    have hbl : (s.coeffs.take b).length = b := by simp; omega
    rw [List.getD_append _ _ _ _ (by simp; omega), List.getD_append_right _ _ _ _ (by omega), hbl,
      Nat.add_sub_cancel_left]
    simp [List.getD_eq_getElem?_getD, hm, segmentAt]
  · intro j hj
    rw [List.mem_range'_1] at hj
    have hbl : (s.coeffs.take b).length = b := by simp; omega
    simp only [hnc]
    by_cases hjb : j < b
    · rw [List.getElem?_append_left (by simp; omega), List.getElem?_append_left (by omega)]
      rw [List.getElem?_take, if_pos hjb]
    · rw [List.getElem?_append_right (by simp; omega)]
      simp
      congr 1
      omega

/-- **C110** (segments).  The coefficient vector of a segment consists of the entries of the coefficient vector
at the indices of the segment; a segment that does not exist raises. -/
theorem C110_segment (w : WellFormed s) (seg : Nat) :
    (numValidTimeSegments s.order s.knots.length ≤ seg → segmentCoefficientVector s seg = .raise ∧
      segmentCoefficientVectorIndices s seg = .raise ∧ segmentVvCoefficientVectorIndices s seg = .raise) ∧
    (seg < numValidTimeSegments s.order s.knots.length → ∃ v, segmentCoefficientVector s seg = .ok v ∧
      segmentCoefficientVectorIndices s seg = .ok (List.range' (seg * D) (s.order * D)) ∧
      segmentVvCoefficientVectorIndices s seg = .ok (List.range' seg s.order) ∧
      v = (List.range' (seg * D) (s.order * D)).map (fun i => (coefficientVector s).getD i 0) ∧
      (seg + s.order) * D ≤ (coefficientVector s).length) := by
  unfold segmentCoefficientVector segmentCoefficientVectorIndices segmentVvCoefficientVectorIndices
  refine ⟨fun h => ⟨if_pos h, if_pos h, if_pos h⟩, fun h => ?_⟩
  have := w.order_ge; have := w.enough; have := w.count
  have hB : seg + s.order ≤ s.coeffs.length := by unfold numValidTimeSegments at h; omega
  obtain ⟨e1, e2, e3⟩ := window_of hB
  rw [if_neg (by omega), if_neg (by omega), if_neg (by omega)]
  refine ⟨_, e1, rfl, rfl, ?_, ?_⟩
  · apply stack_ext (n := s.order) (D := D) e2 (by simp)
    intro m hm e
    rw [e3 m hm e]
    have hlt : m * D + (e : Nat) < s.order * D := by
      have : (m + 1) * D ≤ s.order * D := Nat.mul_le_mul_right _ hm
      rw [Nat.succ_mul] at this
      omega
    have : ((List.range' (seg * D) (s.order * D)).map
        fun i => (coefficientVector s).getD i 0).getD (m * D + e) 0 =
        (coefficientVector s).getD (seg * D + (m * D + e)) 0 := by
      simp [List.getD_eq_getElem?_getD, hlt]
    rw [this, show seg * D + (m * D + (e : Nat)) = (seg + m) * D + e by ring]
    exact (stack_get s.coeffs (by omega) e).symm
  · unfold coefficientVector
    rw [stack_length]
    exact Nat.mul_le_mul_right D hB

/-- A spline with repeated knots meets the hypotheses. -/
example : ∃ v, localCoefficientVector exSpline 2 = .ok v ∧ v.length = 3 := by
  obtain ⟨v, I, J, h, -, -, hv, -, hJ, -, hI⟩ := C110_local exWF (lo := 0) (hi := 4) (t := 2)
    (by rfl) (by rfl) (by norm_num) (by norm_num)
  refine ⟨v, h, ?_⟩
  rw [hv, hI]
  have : exSpline.order = 3 := rfl
  simp [hJ, this]

end Kalibr.Fit
