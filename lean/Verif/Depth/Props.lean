import Verif.Depth.Model
import Verif.Tactics

/-!
# C179: the depth camera
-/

namespace Kalibr.Depth

/-- A point in front of the camera is seen where the line to it meets the image, with the inverse of
its depth as third coordinate, and the call succeeds exactly if that lies in the image; nothing
behind the camera is seen. -/
theorem C179_project (c : Cam) (x y z : ℝ) :
    (0 < z → (c.project (x, y, z)).1 = (c.fu * (x / z) + c.cu, c.fv * (y / z) + c.cv, 1 / z) ∧
      (c.visible (x, y, z) ↔ 0 ≤ c.fu * (x / z) + c.cu ∧ 0 ≤ c.fv * (y / z) + c.cv ∧
        c.fu * (x / z) + c.cu < c.ru ∧ c.fv * (y / z) + c.cv < c.rv)) ∧
    (z ≤ 0 → ¬ c.visible (x, y, z)) := by
  refine ⟨fun hz => ⟨?_, ?_⟩, fun hz h => ?_⟩
  · simp only [Cam.project, mul_one_div]
  · simp only [Cam.visible, Cam.project, Cam.isValid, mul_one_div]
    constructor
    · exact fun h => h.1
    · exact fun h => ⟨h, hz⟩
  · exact absurd h.2 (not_lt.mpr hz)

/-- The keypoint determines the point, for all cameras with focal lengths other than zero. -/
theorem C179_recover (c : Cam) (fu : c.fu ≠ 0) (fv : c.fv ≠ 0) (x y z : ℝ) (hz : z ≠ 0) :
    let k := (c.project (x, y, z)).1
    (((k.1 - c.cu) / c.fu) / k.2.2, ((k.2.1 - c.cv) / c.fv) / k.2.2, 1 / k.2.2) = (x, y, z) := by
  simp only [Cam.project, Prod.mk.injEq]
  refine ⟨?_, ?_, ?_⟩
  · field_simp; ring
  · field_simp; ring
  · field_simp

/-- A camera keeps its precomputed values right and its resolution and distortion through every
history of updates, new parameters and copies by way of an archive. -/
theorem C179_history (fu fv cu cv : ℝ) (ru rv : ℤ) (d : ℝ × ℝ → ℝ × ℝ) (ops : List Op) :
    let c := ops.foldl Cam.apply (Cam.mk' fu fv cu cv ru rv d)
    c.recipFu = 1 / c.fu ∧ c.recipFv = 1 / c.fv ∧ c.fuOverFv = c.fu / c.fv ∧
    c.ru = ru ∧ c.rv = rv ∧ c.distort = d := by
  have key : ∀ (ops : List Op) (c : Cam), (c.recipFu = 1 / c.fu ∧ c.recipFv = 1 / c.fv ∧
      c.fuOverFv = c.fu / c.fv ∧ c.ru = ru ∧ c.rv = rv ∧ c.distort = d) →
      let c' := ops.foldl Cam.apply c
      c'.recipFu = 1 / c'.fu ∧ c'.recipFv = 1 / c'.fv ∧ c'.fuOverFv = c'.fu / c'.fv ∧
      c'.ru = ru ∧ c'.rv = rv ∧ c'.distort = d := by
    intro ops
    induction ops with
    | nil => intro c h; exact h
    | cons o ops ih =>
      intro c h
      refine ih (c.apply o) ?_
      obtain ⟨-, -, -, h4, h5, h6⟩ := h
      cases o <;> exact ⟨rfl, rfl, rfl, h4, h5, h6⟩
  exact key ops _ ⟨rfl, rfl, rfl, rfl, rfl, rfl⟩

/-- Parameters that are set are the ones that are read, an update adds to them, and an archive gives
the camera back. -/
theorem C179_parameters (c : Cam) (p v : V4) :
    (c.setParams p).params = p ∧ (c.update v).params = c.params + v ∧
    (c.recipFu = 1 / c.fu → c.recipFv = 1 / c.fv → c.fuOverFv = c.fu / c.fv →
      Cam.load c.save = c ∧ c.setParams c.params = c) := by
  refine ⟨rfl, rfl, ?_⟩
  intro h1 h2 h3
  obtain ⟨a, b, e, f, ru, rv, r1, r2, r3, d⟩ := c
  simp only at h1 h2 h3
  subst h1 h2 h3
  exact ⟨rfl, rfl⟩

/-- The distortion has no effect: the camera with any distortion sees every point where the one
without distortion sees it. -/
theorem C179_distortion_counterexample (c : Cam) (d : ℝ × ℝ → ℝ × ℝ) (p : V3) :
    ({ c with distort := d }).project p = c.project p := rfl

/-- A camera. -/
noncomputable def cam0 : Cam := Cam.mk' 400 400 320 240 640 480 id

/-- The projection with the Jacobian reads outside of an empty matrix, for every camera and every
point. -/
theorem C179_jacobian_counterexample (c : Cam) (p : V3) : c.projectJ p = .ub := by
  simp [Cam.projectJ, Cam.jacobian, Dyn.at, Out.bind]

/-- With the Jacobian of a distortion in place the keypoint would still be wrong: it is scaled twice. -/
theorem C179_twice_counterexample : ∃ (p : V3) (k : V3) (J : Fin 3 → Fin 3 → ℝ) (ok : Prop),
    cam0.jacobian p ⟨2, 2, fun i j => if i = j then 1 else 0⟩ = .ok (k, J, ok) ∧ k ≠ (cam0.project p).1 := by
  refine ⟨(0, 0, 1), _, _, _, rfl, ?_⟩
  intro h
  have := congrArg Prod.fst h
  norm_num [cam0, Cam.mk', Cam.project] at this

/-- Back projection never succeeds and leaves the output as it was, also for the keypoint of a
visible point. -/
theorem C179_back_counterexample (c : Cam) (k out : V3) : (c.back k out).1 = out ∧ ¬ (c.back k out).2 :=
  ⟨rfl, id⟩

/-- The Jacobian of the intrinsics is zero although the focal length moves the keypoint. -/
theorem C179_intrinsics_counterexample : ∃ (p : V3) (v : V4),
    ((cam0.update v).project p).1 ≠ (cam0.project p).1 ∧
    ∀ i j, cam0.intrinsicsJ p i j = 0 := by
  refine ⟨(1, 0, 2), (2, 0, 0, 0), ?_, fun _ _ => rfl⟩
  simp only [cam0, Cam.mk', Cam.update, Cam.project]
  intro h
  have := congrArg Prod.fst h
  norm_num at this

/-- The third coordinate depends on the scale of homogeneous coordinates: the same point gives
different keypoints. -/
theorem C179_homogeneous_counterexample (c : Cam) : ∃ (p : V4) (s : ℝ), 0 < s ∧ 0 < p.2.2.2 ∧
    (c.projectH (s * p.1, s * p.2.1, s * p.2.2.1, s * p.2.2.2)).1 ≠ (c.projectH p).1 := by
  refine ⟨(0, 0, 1, 1), 2, by norm_num, by norm_num, ?_⟩
  simp only [Cam.projectH]
  rw [if_neg (by norm_num), if_neg (by norm_num)]
  intro h
  have := congrArg (fun k : V3 => k.2.2) h
  simp only [Cam.project] at this
  norm_num at this

/-- The place in the image does not depend on the scale. -/
theorem C179_homogeneous_partial (c : Cam) (x y z w s : ℝ) (hs : s ≠ 0) (hw : w ≠ 0) (hz : z ≠ 0) :
    let k := (c.projectH (x, y, z, w)).1
    let k' := (c.projectH (s * x, s * y, s * z, s * w)).1
    k'.1 = k.1 ∧ k'.2.1 = k.2.1 ∧
    (c.visibleH (s * x, s * y, s * z, s * w) ↔ c.visibleH (x, y, z, w)) := by
  rcases lt_or_gt_of_ne hs with s0 | s0 <;> rcases lt_or_gt_of_ne hw with w0 | w0
  · have h1 : ¬ s * w < 0 := not_lt.mpr (mul_nonneg_of_nonpos_of_nonpos s0.le w0.le)
    simp only [Cam.visibleH, Cam.projectH, if_pos w0, if_neg h1, Cam.project, Cam.isValid]
    have e1 : s * x * (1 / (s * z)) = -x * (1 / -z) := by field_simp
    have e2 : s * y * (1 / (s * z)) = -y * (1 / -z) := by field_simp
    rw [e1, e2]
    refine ⟨rfl, rfl, ?_⟩
    have : 0 < s * z ↔ 0 < -z := by
      constructor
      · intro h; nlinarith
      · intro h; nlinarith
    rw [this]
  · have h1 : s * w < 0 := mul_neg_of_neg_of_pos s0 w0
    simp only [Cam.visibleH, Cam.projectH, if_neg (not_lt.mpr w0.le), if_pos h1, Cam.project, Cam.isValid]
    have e1 : -(s * x) * (1 / -(s * z)) = x * (1 / z) := by field_simp
    have e2 : -(s * y) * (1 / -(s * z)) = y * (1 / z) := by field_simp
    rw [e1, e2]
    refine ⟨rfl, rfl, ?_⟩
    have : 0 < -(s * z) ↔ 0 < z := by
      constructor
      · intro h; nlinarith
      · intro h; nlinarith
    rw [this]
  · have h1 : s * w < 0 := mul_neg_of_pos_of_neg s0 w0
    simp only [Cam.visibleH, Cam.projectH, if_pos w0, if_pos h1, Cam.project, Cam.isValid]
    have e1 : -(s * x) * (1 / -(s * z)) = -x * (1 / -z) := by field_simp
    have e2 : -(s * y) * (1 / -(s * z)) = -y * (1 / -z) := by field_simp
    rw [e1, e2]
    refine ⟨rfl, rfl, ?_⟩
    have : 0 < -(s * z) ↔ 0 < -z := by
      constructor
      · intro h; nlinarith
      · intro h; nlinarith
    rw [this]
  · have h1 : ¬ s * w < 0 := not_lt.mpr (mul_pos s0 w0).le
    simp only [Cam.visibleH, Cam.projectH, if_neg (not_lt.mpr w0.le), if_neg h1, Cam.project, Cam.isValid]
    have e1 : s * x * (1 / (s * z)) = x * (1 / z) := by field_simp
    have e2 : s * y * (1 / (s * z)) = y * (1 / z) := by field_simp
    rw [e1, e2]
    refine ⟨rfl, rfl, ?_⟩
    have : 0 < s * z ↔ 0 < z := by
      constructor
      · intro h; nlinarith
      · intro h; nlinarith
    rw [this]

/-- The "random visible point" is not visible, and no camera equals itself. -/
theorem C179_random_counterexample (c : Cam) : ¬ c.visible c.randomPoint ∧ c.binaryEqual c = false :=
  ⟨(C179_project c 0 0 0).2 le_rfl, rfl⟩

/-- A point the camera sees. -/
example : cam0.visible (1, -1, 4) ∧ cam0.fu ≠ 0 := by
  refine ⟨?_, by norm_num [cam0, Cam.mk']⟩
  rw [((C179_project cam0 1 (-1) 4).1 (by norm_num)).2]
  norm_num [cam0, Cam.mk']

end Kalibr.Depth
