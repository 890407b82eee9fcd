import Verif.Fit.Points

/-! Concrete cases that meet the hypotheses of C111 to C114. -/

namespace Kalibr.Fit

open BSpline Motion Finset

/-- An object of order 5 that has not been initialised. -/
def fresh : Spline ℝ 2 := ⟨5, [], [], []⟩

/-- C112: an odd order, where the system is over-determined. -/
example : ∃ sol, Exact sol ∧ ∃ s', initSpline sol fresh 1 3 ![0, 1] ![4, -1] = .ok s' ∧
    evalD s' 2 1 = .ok (fun e => (![4, -1] e - ![0, 1] e) / (3 - 1)) := by
  obtain ⟨sol, hx⟩ := exact_exists
  obtain ⟨s', h, _, _, _, _, _, hv⟩ := C112_line_partial hx (s := fresh) (by decide) (by decide)
    (show (1 : ℝ) < 3 by norm_num) ![0, 1] ![4, -1]
  exact ⟨sol, hx, s', h, (hv 2 (by norm_num) (by norm_num)).2.1⟩

/-- A quadratic spline with two segments, `[2, 3]` and `[3, 5]`. -/
noncomputable def quadratic : Spline ℝ 1 := ⟨3, [0, 1, 2, 3, 5, 6, 7], [0, 1, -1, 2], initBasis 3 [0, 1, 2, 3, 5, 6, 7]⟩

theorem quadratic_ok : WellFormed quadratic := ⟨by decide, by simp [quadratic], by simp [quadratic], rfl, by
  apply (nondecreasing_iff _).1
  unfold Nondecreasing quadratic
  simp
  norm_num⟩

/-- C113: the hypotheses are met, and the first segment keeps its values. -/
example : ∃ sol, Exact sol ∧ ∃ s', addCurveSegment sol 0 quadratic 9 (fun _ => 7) = .ok s' ∧ tMax s' = .ok 9 ∧
    evalD s' 9 0 = .ok (fun _ => 7) ∧ evalD s' (5 / 2) 1 = evalD quadratic (5 / 2) 1 := by
  obtain ⟨sol, hx⟩ := exact_exists
  have hlo : tMin quadratic = .ok 2 := by
    rw [quadratic_ok.tMin_eq]; simp [quadratic, knotAt]
  have hhi : tMax quadratic = .ok 5 := by
    rw [quadratic_ok.tMax_eq]; simp [quadratic, knotAt]
  have hI : ∀ i, i < 2 → timeInterval quadratic i =
      .ok (knotAt quadratic.knots (3 + i - 1), knotAt quadratic.knots (3 + i)) := by
    intro i hi
    unfold timeInterval
    rw [minimumKnotsRequired_eq _ (by decide), if_neg (by simp [quadratic]),
      if_neg (by simp [quadratic, numValidTimeSegments]; omega)]
    rfl
  obtain ⟨s', h, _, _, _, h5, _, _, h8, _, h10⟩ := C113_extend_partial hx 0 quadratic_ok hlo hhi (t := 9)
    (by norm_num) (L := (3, 5)) (by
      rw [show numValidTimeSegments quadratic.order quadratic.knots.length - 1 = 1 by
        simp [quadratic, numValidTimeSegments], hI 1 (by omega)]
      simp [quadratic, knotAt]) (by norm_num) (fun _ => 7)
  refine ⟨sol, hx, s', h, h5, h8, h10 0 (2, 3) (by simp [quadratic, numValidTimeSegments]) ?_ _ (by norm_num)
    (by norm_num) (by norm_num) 1⟩
  rw [hI 0 (by omega)]
  simp [quadratic, knotAt]

/-- Three points of the plane; two of the times are equal. -/
def points : List (ℝ × (Fin 2 → ℝ)) := [(0, ![0, 1]), (2, ![3, 1]), (2, ![3, 2]), (4, ![0, 0])]

/-- C114: the hypotheses are met by points with repeated times, more coefficients than points, and no
regularisation at all. -/
example : ∃ sol, Exact sol ∧ ∃ s', initSpline3 sol fresh points 7 0 = .ok s' ∧ tMax s' = .ok 4 ∧
    ∀ y, fitCost s' points 0 2 ≤ fitCost (withCoeffs s' y) points 0 2 := by
  obtain ⟨sol, hx⟩ := exact_exists
  obtain ⟨s', h, _, _, _, h5, _, hv⟩ := C114_dense_partial hx (s := fresh) (by decide) (data := points)
    (first := (0, ![0, 1])) (last := (4, ![0, 0])) rfl rfl (by decide) (by simp [points]; norm_num) (n := 7) (by decide)
    (by decide) (le_refl (0 : ℝ))
  exact ⟨sol, hx, s', h, h5, hv⟩

/-- C114, sparse. -/
example : ∃ sol, Exact sol ∧ ∃ s', initSplineSparse sol fresh points 7 (1 / 2) = .ok s' ∧
    ∀ y, fitCost s' points (1 / 2) 2 ≤ fitCost (withCoeffs s' y) points (1 / 2) 2 := by
  obtain ⟨sol, hx⟩ := exact_exists
  obtain ⟨s', h, _, _, _, h5, _, hv⟩ := C114_sparse_partial hx (s := fresh) (by decide) (data := points)
    (first := (0, ![0, 1])) (last := (4, ![0, 0])) rfl rfl (by decide) (by simp [points]; norm_num) (n := 7) (by decide)
    (by decide) (show (0 : ℝ) ≤ 1 / 2 by norm_num)
  exact ⟨sol, hx, s', h, hv⟩

/-- C114, given knots, not equally spaced, for points on the line of the second coordinate. -/
example : ∃ sol, Exact sol ∧ ∃ s', initSplineSparseKnots sol (⟨2, [], [], []⟩ : Spline ℝ 1)
      [(1, fun _ => 3), (4, fun _ => 5)] [0, 1, 3, 4, 4, 6] 1 = .ok s' ∧
    ∀ y, fitCost s' [(1, fun _ => 3), (4, fun _ => 5)] 1 1 ≤
      fitCost (withCoeffs s' y) [(1, fun _ => 3), (4, fun _ => 5)] 1 1 := by
  obtain ⟨sol, hx⟩ := exact_exists
  obtain ⟨s', h, _, _, _, hv⟩ := C114_knots_partial hx (s := (⟨2, [], [], []⟩ : Spline ℝ 1)) (by decide)
    (data := [(1, fun _ => 3), (4, fun _ => 5)]) (by decide) (by simp) (knots := [0, 1, 3, 4, 4, 6])
    (by simp; norm_num) (by simp) (by simp) (by simp) (show (0 : ℝ) ≤ 1 by norm_num)
  exact ⟨sol, hx, s', h, hv⟩

/-- C114, exact fits: the zero coefficients have cost zero when all points are at the origin, so the fitted
spline passes through them. -/
example : ∃ sol, Exact sol ∧ ∃ s', initSpline3 sol fresh [(0, 0), (1, 0), (4, 0)] 3 2 = .ok s' ∧
    ∀ v, evalD s' 1 0 = .ok v → v = 0 := by
  obtain ⟨sol, hx⟩ := exact_exists
  obtain ⟨s', h, w, h3, h4, h5, _, hv⟩ := C114_dense_partial hx (s := fresh) (by decide)
    (data := [(0, 0), (1, 0), (4, 0)]) (first := (0, 0)) (last := (4, 0)) rfl rfl (by decide) (by simp)
    (n := 3) (by decide) (by decide) (show (0 : ℝ) ≤ 2 by norm_num)
  refine ⟨sol, hx, s', h, fun v hev => ?_⟩
  have hz : fitCost (withCoeffs s' fun _ => 0) [(0, 0), (1, 0), (4, 0)] 2 2 = 0 := by
    obtain ⟨rows, hrows, hrel⟩ := fitRows_ok w h4 h5 [(0, 0), (1, 0), (4, 0)] (by simp)
    obtain ⟨Q, _, hQ, _⟩ := C101_accepts w (scalarMat 2 2) rfl rfl (by
      intro r c
      simp only [scalarMat]
      by_cases hrc : r = c
      · subst hrc; rfl
      · rw [if_neg hrc, if_neg fun h => hrc h.symm]) 2
    unfold fitCost
    rw [rows_cost hrel, ← C101_integral w _ 2 hQ]
    have hb : ∀ a, denseB rows a = 0 := by
      intro a
      unfold denseB
      cases hr : rows[a / 2]? with
      | none => rfl
      | some R =>
        obtain ⟨hi, rfl⟩ := List.getElem?_eq_some_iff.1 hr
        have := (List.forall₂_iff_get.1 hrel).2 (a / 2) (by rw [hrel.length_eq]; exact hi) hi
        simp only [List.get_eq_getElem] at this
        simp only [this.rhs]
        have hm : ([(0, 0), (1, 0), (4, 0)] : List (ℝ × (Fin 2 → ℝ)))[a / 2]'(by rw [hrel.length_eq]; exact hi) ∈
            ([(0, 0), (1, 0), (4, 0)] : List (ℝ × (Fin 2 → ℝ))) := List.getElem_mem _
        have h0 : ∀ q ∈ ([(0, 0), (1, 0), (4, 0)] : List (ℝ × (Fin 2 → ℝ))), q.2 = 0 := by simp
        rw [h0 _ hm]
        simp
    simp [hb]
  exact C114_exact w (by norm_num) hv ⟨_, hz⟩ (t := 1) (p := 0) (by simp) hev

/-- C114, acceleration at the knots. -/
example : ∃ sol, Exact sol ∧ ∃ s', initSpline2 sol fresh points 7 (-2) = .ok s' ∧ tMax s' = .ok 4 ∧
    ∀ y, pointCost s' points (-2) ≤ pointCost (withCoeffs s' y) points (-2) := by
  obtain ⟨sol, hx⟩ := exact_exists
  obtain ⟨s', h, _, _, _, h5, _, hv⟩ := C114_points_partial hx (s := fresh) (by decide) (data := points)
    (first := (0, ![0, 1])) (last := (4, ![0, 0])) rfl rfl (by decide) (by simp [points]; norm_num) (n := 7) (by decide)
    (by decide) (-2)
  exact ⟨sol, hx, s', h, h5, hv⟩

/-- C113, second variant. -/
example : ∃ sol, Exact sol ∧ ∃ s', addCurveSegment2 sol 0 quadratic 9 (fun _ => 7) 0 = .ok s' ∧ tMax s' = .ok 9 ∧
    evalD s' 9 0 = .ok (fun _ => 7) := by
  obtain ⟨sol, hx⟩ := exact_exists
  have hlo : tMin quadratic = .ok 2 := by
    rw [quadratic_ok.tMin_eq]; simp [quadratic, knotAt]
  have hhi : tMax quadratic = .ok 5 := by
    rw [quadratic_ok.tMax_eq]; simp [quadratic, knotAt]
  obtain ⟨s', h, _, _, _, h5, _, _, h8, _⟩ := C113_second_partial hx 0 quadratic_ok hlo hhi (t := 9)
    (by norm_num) (L := (3, 5)) (by
      unfold timeInterval
      rw [minimumKnotsRequired_eq _ (by decide), if_neg (by simp [quadratic]),
        if_neg (by simp [quadratic, numValidTimeSegments])]
      simp [quadratic, knotAt, numValidTimeSegments]) (by norm_num) (fun _ => 7)
  exact ⟨sol, hx, s', h, h5, h8⟩

end Kalibr.Fit
