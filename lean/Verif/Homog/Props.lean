import Verif.Homog.Model

namespace Kalibr.Homog

/-- The object is in the state of the specification. -/
def Rel (find : Find) (c : P2) (h : Hom) : Cur → Prop
  | .mat M => h.cxy = c ∧ h.valid = true ∧ h.H = M
  | .pts s d => h.cxy = c ∧ h.srcPts = s ∧ h.dstPts = d ∧ (h.valid = true → homOf find c (.pts s d) = .ok h.H)

theorem compute_spec {find : Find} {c : P2} {h : Hom} {u : Cur} (hr : Rel find c h u) :
    (∃ h', h.compute find = .ok h' ∧ homOf find c u = .ok h'.H ∧ Rel find c h' u ∧ h'.valid = true ∧ h'.cxy = c) ∨
    (h.compute find = .ub ∧ homOf find c u = .ub) := by
  cases u with
  | mat M =>
    obtain ⟨h1, h2, h3⟩ := hr
    exact .inl ⟨h, by simp [Hom.compute, h2], by simp [homOf, h3], ⟨h1, h2, h3⟩, h2, h1⟩
  | pts s d =>
    obtain ⟨h1, h2, h3, h4⟩ := hr
    by_cases hv : h.valid = true
    · exact .inl ⟨h, by simp [Hom.compute, hv], h4 hv, ⟨h1, h2, h3, h4⟩, hv, h1⟩
    · by_cases hl : s.length < 4 ∨ d.length < 4
      · exact .inr ⟨by simp [Hom.compute, hv, h2, h3, hl], by simp [homOf, hl]⟩
      · cases hf : find (s.take 4) ((d.take 4).map fun p => (p.1 - c.1, p.2 - c.2)) with
        | none => exact .inr ⟨by simp only [Hom.compute, hv, h1, h2, h3, if_neg hl, hf]; rfl, by simp only [homOf, if_neg hl, hf]⟩
        | some H =>
          refine .inl ⟨{ h with H := H, valid := true }, by simp only [Hom.compute, hv, h1, h2, h3, if_neg hl, hf]; rfl,
            by simp only [homOf, if_neg hl, hf], ⟨h1, h2, h3, fun _ => by simp only [homOf, if_neg hl, hf]⟩, rfl, h1⟩

theorem run_spec (find : Find) (c : P2) (ops : List Op) :
    ∀ (h : Hom) (u : Cur), Rel find c h u → run find h ops = spec find c u ops := by
  induction ops with
  | nil => intro h u _; cases u <;> simp [run, spec]
  | cons o os ih =>
    intro h u hr
    cases o with
    | set s d =>
      have hr' : Rel find c (h.setCorrespondences s d) (.pts s d) := by
        refine ⟨?_, rfl, rfl, fun hv => by simp [Hom.setCorrespondences] at hv⟩
        cases u <;> exact hr.1
      simp only [run, step, spec, Out.bind, ih _ _ hr']
    | getH =>
      rcases compute_spec hr with ⟨h', e1, e2, e3, e4, e5⟩ | ⟨e1, e2⟩
      · simp only [run, step, spec, Hom.getH, e1, e2, Out.bind, ih _ _ e3]
      · simp only [run, step, spec, Hom.getH, e1, e2, Out.bind]
    | project x y =>
      rcases compute_spec hr with ⟨h', e1, e2, e3, e4, e5⟩ | ⟨e1, e2⟩
      · simp only [run, step, spec, Hom.project, e1, e2, Out.bind, ih _ _ e3, e5]
      · simp only [run, step, spec, Hom.project, e1, e2, Out.bind]
    | write M =>
      rcases compute_spec hr with ⟨h', e1, e2, e3, e4, e5⟩ | ⟨e1, e2⟩
      · have : Rel find c { h' with H := M } (.mat M) := ⟨e5, e4, rfl⟩
        simp only [run, step, spec, Hom.getH, e1, e2, Out.bind, ih _ _ this]
      · simp only [run, step, spec, Hom.getH, e1, e2, Out.bind]

/-- C197: after any history every call answers as if the homography were computed anew from the points given last, or were the
matrix written since; keeping it cannot be seen. -/
theorem C197_history_partial (find : Find) (c : P2) (ops : List Op) :
    run find (Hom.new c) ops = spec find c (.pts [] []) ops :=
  run_spec find c ops _ _ ⟨rfl, rfl, rfl, fun h => by simp [Hom.new] at h⟩

theorem takes_iff {H : M3} {s d : P2} : Takes H s d ↔
    H 2 0 * s.1 + H 2 1 * s.2 + H 2 2 ≠ 0 ∧
    H 0 0 * s.1 + H 0 1 * s.2 + H 0 2 = (H 2 0 * s.1 + H 2 1 * s.2 + H 2 2) * d.1 ∧
    H 1 0 * s.1 + H 1 1 * s.2 + H 1 2 = (H 2 0 * s.1 + H 2 1 * s.2 + H 2 2) * d.2 := by
  unfold Takes
  constructor
  · rintro ⟨z, hz, h⟩
    have h0 := congrFun h 0
    have h1 := congrFun h 1
    have h2 := congrFun h 2
    simp [Matrix.mulVec, dotProduct, Fin.sum_univ_three] at h0 h1 h2
    rw [h2]
    exact ⟨hz, h0, h1⟩
  · rintro ⟨h0, h1, h2⟩
    refine ⟨_, h0, ?_⟩
    ext i
    fin_cases i <;> simp [Matrix.mulVec, dotProduct, Fin.sum_univ_three, h1, h2]

theorem point_takes {H : M3} {c s d : P2} (h : Takes H s (d.1 - c.1, d.2 - c.2)) : point H c s.1 s.2 = some d := by
  obtain ⟨h0, h1, h2⟩ := takes_iff.1 h
  simp only [point, if_neg h0, h1, h2, mul_div_cancel_left₀ _ h0]
  simp

theorem interpolate_takes {H : M3} {c s d : P2} (h : Takes H s (d.1 - c.1, d.2 - c.2)) : interpolate H c s.1 s.2 = d := by
  obtain ⟨h0, h1, h2⟩ := takes_iff.1 h
  simp only [interpolate, if_neg h0, h1, h2, mul_div_cancel_left₀ _ h0]
  simp

/-- C197: whatever the optical centre, if OpenCV gives a matrix that takes the corners of a tag to the corners of the
quadrilateral less the centre, the quadrilateral projects each corner of the tag to its own. -/
theorem C197_corners (find : Find) (c : P2) (q : Fin 4 → P2) (H : M3)
    (hf : find (List.ofFn corner) (List.ofFn fun i => ((q i).1 - c.1, (q i).2 - c.2)) = some H)
    (hH : ∀ i, Takes H (corner i) ((q i).1 - c.1, (q i).2 - c.2)) (i : Fin 4) :
    ∃ h, (ofQuad c q).project find (corner i).1 (corner i).2 = .ok (some (q i), h) := by
  refine ⟨{ ofQuad c q with H := H, valid := true }, ?_⟩
  have e1 : (List.ofFn corner).take 4 = List.ofFn corner := List.take_of_length_le (by simp)
  have e2 : ((List.ofFn q).take 4).map (fun p => (p.1 - c.1, p.2 - c.2)) =
      List.ofFn fun i => ((q i).1 - c.1, (q i).2 - c.2) := by
    rw [List.take_of_length_le (by simp), List.map_ofFn]; rfl
  have hc : (ofQuad c q).compute find = .ok { ofQuad c q with H := H, valid := true } := by
    unfold Hom.compute ofQuad Hom.setCorrespondences Hom.new
    simp only [e1, e2, hf, List.length_ofFn]
    rfl
  unfold Hom.project
  rw [hc]
  simp only [Out.bind]
  rw [show (ofQuad c q).cxy = c from rfl, point_takes (hH i)]

theorem interpolate_turn (H : M3) (c : P2) (k : ℕ) (x y : ℝ) :
    interpolate (H * turn k) c x y =
      interpolate H c (Real.cos (k * Real.pi / 2) * x - Real.sin (k * Real.pi / 2) * y)
        (Real.sin (k * Real.pi / 2) * x + Real.cos (k * Real.pi / 2) * y) := by
  have key (i : Fin 3) : (H * turn k) i 0 * x + (H * turn k) i 1 * y + (H * turn k) i 2 =
      H i 0 * (Real.cos (k * Real.pi / 2) * x - Real.sin (k * Real.pi / 2) * y) +
      H i 1 * (Real.sin (k * Real.pi / 2) * x + Real.cos (k * Real.pi / 2) * y) + H i 2 := by
    simp [Matrix.mul_apply, Fin.sum_univ_three, turn]
    ring
  simp only [interpolate, key]

theorem corner_turn (j k : Fin 4) :
    (Real.cos ((k : ℕ) * Real.pi / 2) * (corner j).1 - Real.sin ((k : ℕ) * Real.pi / 2) * (corner j).2 = (corner (j + k)).1) ∧
    (Real.sin ((k : ℕ) * Real.pi / 2) * (corner j).1 + Real.cos ((k : ℕ) * Real.pi / 2) * (corner j).2 = (corner (j + k)).2) := by
  have c2 : Real.cos (2 * Real.pi / 2) = -1 := by rw [mul_div_cancel_left₀ _ two_ne_zero]; exact Real.cos_pi
  have s2 : Real.sin (2 * Real.pi / 2) = 0 := by rw [mul_div_cancel_left₀ _ two_ne_zero]; exact Real.sin_pi
  have c3 : Real.cos (3 * Real.pi / 2) = 0 := by
    rw [show 3 * Real.pi / 2 = Real.pi / 2 + Real.pi by ring, Real.cos_add_pi, Real.cos_pi_div_two, neg_zero]
  have s3 : Real.sin (3 * Real.pi / 2) = -1 := by
    rw [show 3 * Real.pi / 2 = Real.pi / 2 + Real.pi by ring, Real.sin_add_pi, Real.sin_pi_div_two]
  have e (j k : Fin 4) : (corner (j + k)) = corner ⟨(j.val + k.val) % 4, by omega⟩ := rfl
  fin_cases k <;> fin_cases j <;> (rw [e]; simp [corner, c2, s2, c3, s3])

/-- C197: a detection whose tag is turned `k` times takes the corner `j` of the tag to the corner `j + k` of the quadrilateral,
and its orientation is the direction from the lower left to the lower right corner. -/
theorem C197_detected (find : Find) (c : P2) (q : Fin 4 → P2) (H : M3)
    (hf : find (List.ofFn corner) (List.ofFn fun i => ((q i).1 - c.1, (q i).2 - c.2)) = some H)
    (hH : ∀ i, Takes H (corner i) ((q i).1 - c.1, (q i).2 - c.2)) (k : Fin 4) :
    ∃ D, detected find (ofQuad c q) k = .ok D ∧
      (∀ j, interpolate D.1 D.2 (corner j).1 (corner j).2 = q (j + k)) ∧
      orientation D.1 D.2 = Complex.arg ⟨(q (1 + k)).1 - (q k).1, (q (1 + k)).2 - (q k).2⟩ := by
  have e1 : (List.ofFn corner).take 4 = List.ofFn corner := List.take_of_length_le (by simp)
  have e2 : ((List.ofFn q).take 4).map (fun p => (p.1 - c.1, p.2 - c.2)) =
      List.ofFn fun i => ((q i).1 - c.1, (q i).2 - c.2) := by
    rw [List.take_of_length_le (by simp), List.map_ofFn]; rfl
  have hc : (ofQuad c q).compute find = .ok { ofQuad c q with H := H, valid := true } := by
    unfold Hom.compute ofQuad Hom.setCorrespondences Hom.new
    simp only [e1, e2, hf, List.length_ofFn]
    rfl
  have hi (j : Fin 4) : interpolate (H * turn k) c (corner j).1 (corner j).2 = q (j + k) := by
    rw [interpolate_turn, (corner_turn j k).1, (corner_turn j k).2]
    exact interpolate_takes (hH (j + k))
  refine ⟨(H * turn k, c), ?_, hi, ?_⟩
  · simp only [detected, Hom.getH, hc, Out.bind]; rfl
  · have h0 := hi 0
    have h1 := hi 1
    rw [zero_add] at h0
    simp only [corner, Matrix.cons_val_zero, Matrix.cons_val_one] at h0 h1
    simp only [orientation, h0, h1]

/-- C197 is false where OpenCV finds no homography, as for a quadrilateral of no area: its empty matrix is read. -/
theorem C197_counterexample (find : Find) (c : P2) (q : Fin 4 → P2)
    (hf : find (List.ofFn corner) (List.ofFn fun i => ((q i).1 - c.1, (q i).2 - c.2)) = none) (k : ℕ) :
    detected find (ofQuad c q) k = .ub := by
  have e1 : (List.ofFn corner).take 4 = List.ofFn corner := List.take_of_length_le (by simp)
  have e2 : ((List.ofFn q).take 4).map (fun p => (p.1 - c.1, p.2 - c.2)) =
      List.ofFn fun i => ((q i).1 - c.1, (q i).2 - c.2) := by
    rw [List.take_of_length_le (by simp), List.map_ofFn]; rfl
  unfold detected Hom.getH Hom.compute ofQuad Hom.setCorrespondences Hom.new
  simp only [e1, e2, hf, List.length_ofFn]
  rfl

/-- A square around the optical centre and its homography meet the hypotheses. -/
example : ∃ (find : Find) (q : Fin 4 → P2) (H : M3),
    find (List.ofFn corner) (List.ofFn fun i => ((q i).1 - 320, (q i).2 - 240)) = some H ∧
    ∀ i, Takes H (corner i) ((q i).1 - 320, (q i).2 - 240) := by
  refine ⟨fun _ _ => some !![10, 0, 0; 0, 10, 0; 0, 0, 1],
    ![(310, 230), (330, 230), (330, 250), (310, 250)], _, rfl, fun i => ?_⟩
  rw [takes_iff]
  fin_cases i <;> simp [corner] <;> norm_num

/-- A history with a change of the points and a written matrix. -/
example : run (fun s _ => if s = [] then none else some 1) (Hom.new (0, 0))
    [.set [(0, 0), (0, 1), (1, 0), (1, 1)] [(0, 0), (0, 1), (1, 0), (1, 1)], .getH, .write 0, .getH] =
    .ok [.unit, .mat 1, .unit, .mat 0] := by
  simp [run, step, Hom.getH, Hom.compute, Hom.new, Hom.setCorrespondences]

end Kalibr.Homog
