import Verif.Kinematics.AxisAngle
import Verif.Tactics

/-!
# Rotation vectors that do not flip (C129)

`IccCamera.initPoseSplineFromCamera` (`aslam_offline_calibration/kalibr/python/kalibr_imu_camera_calibration/IccSensors.py`,
lines 293-310) and `RsCalibrator.__ensureContinuousRotationVectors` (`kalibr_rs_camera_calibration/RsCalibrator.py`, lines
371-391), which have the same text: before a spline is fitted to the poses of the camera, the rotation vectors are moved by full
turns so that each is near the one before. Numbers are reals.
-/

namespace Kalibr.Icc

open Kalibr.Kin Real Matrix

/-- `aa = axis * (angle + math.pi * 2.0 * s)` (IccSensors.py 302). -/
noncomputable def moved (r : V3) (s : ℤ) : V3 := (norm3 r + π * 2 * s) • ((1 / norm3 r) • r)

/-- One comparison of the inner loop (IccSensors.py 303-306): the best vector so far and its distance. -/
noncomputable def better (prev r : V3) (b : V3 × ℝ) (s : ℤ) : V3 × ℝ :=
  open Classical in if norm3 (moved r s - prev) < b.2 then (moved r s, norm3 (moved r s - prev)) else b

/-- `range(-3,4)` (IccSensors.py 301). -/
def turns : List ℤ := [-3, -2, -1, 0, 1, 2, 3]

/-- One pass of the outer loop (IccSensors.py 294-307). For the vector zero `r/angle` is not a number, neither is any distance,
and no comparison with it holds: the vector stays as it is. -/
noncomputable def follow (prev r : V3) : V3 :=
  open Classical in if norm3 r = 0 then r else (turns.foldl (better prev r) (r, norm3 (r - prev))).1

/-- The passes that are left, `prev` being the column before, which has been changed already. -/
noncomputable def followAll (prev : V3) : List V3 → List V3
  | [] => []
  | r :: rs => follow prev r :: followAll (follow prev r) rs

/-- The loop over the columns (IccSensors.py 293-307): the first column is not changed. -/
noncomputable def unwrap : List V3 → List V3
  | [] => []
  | r :: rs => r :: followAll r rs

/-! ## Specification -/

/-- The two vectors are the same rotation: every vector is turned the same way by the length about the direction of one of them
and by those of the other. -/
def SameRotation (p q : V3) : Prop := ∀ v, turn (norm3 p) ((1 / norm3 p) • p) v = turn (norm3 q) ((1 / norm3 q) • q) v

/-- `q` is `p` after `s` more turns about the direction of `p`. -/
def Turned (p q : V3) (s : ℤ) : Prop := q = p + (2 * π * s) • ((1 / norm3 p) • p)

/-! ## Proofs -/

theorem moved_eq (r : V3) (h : norm3 r ≠ 0) (s : ℤ) : Turned r (moved r s) s := by
  unfold Turned moved
  rw [add_smul, smul_smul, mul_one_div_cancel h, one_smul]
  congr 2
  ring

theorem moved_zero (r : V3) (h : norm3 r ≠ 0) : moved r 0 = r := by
  have := moved_eq r h 0
  simpa [Turned] using this

theorem best_spec (prev r : V3) (l : List ℤ) : ∀ b : V3 × ℝ, b.2 = norm3 (b.1 - prev) →
    (l.foldl (better prev r) b).2 = norm3 ((l.foldl (better prev r) b).1 - prev) ∧
    ((l.foldl (better prev r) b).1 = b.1 ∨ ∃ s ∈ l, (l.foldl (better prev r) b).1 = moved r s) ∧
    (l.foldl (better prev r) b).2 ≤ b.2 ∧ ∀ s ∈ l, (l.foldl (better prev r) b).2 ≤ norm3 (moved r s - prev) := by
  induction l with
  | nil => intro b hb; simp [hb]
  | cons s ss ih =>
    intro b hb
    rw [List.foldl_cons]
    have hb' : (better prev r b s).2 = norm3 ((better prev r b s).1 - prev) := by
      unfold better
      split_ifs
      · rfl
      · exact hb
    have hle : (better prev r b s).2 ≤ b.2 ∧ (better prev r b s).2 ≤ norm3 (moved r s - prev) := by
      unfold better
      split_ifs with h
      · exact ⟨h.le, le_refl _⟩
      · exact ⟨le_refl _, not_lt.1 h⟩
    have hor : (better prev r b s).1 = b.1 ∨ (better prev r b s).1 = moved r s := by
      unfold better
      split_ifs with h
      · exact Or.inr rfl
      · exact Or.inl rfl
    obtain ⟨h1, h2, h3, h4⟩ := ih _ hb'
    refine ⟨h1, ?_, h3.trans hle.1, ?_⟩
    · rcases h2 with h2 | ⟨s', hs', h2⟩
      · rcases hor with h | h
        · exact Or.inl (h2.trans h)
        · exact Or.inr ⟨s, by simp, h2.trans h⟩
      · exact Or.inr ⟨s', by simp [hs'], h2⟩
    · intro s' hs'
      rcases List.mem_cons.1 hs' with h | h
      · rw [h]; exact h3.trans hle.2
      · exact h4 s' h

theorem mem_turns (s : ℤ) : s ∈ turns ↔ -3 ≤ s ∧ s ≤ 3 := by
  simp only [turns, List.mem_cons, List.not_mem_nil, or_false]
  omega

theorem follow_spec (prev r : V3) (h : norm3 r ≠ 0) : ∃ s : ℤ, (-3 ≤ s ∧ s ≤ 3) ∧ follow prev r = moved r s ∧
    ∀ s' : ℤ, -3 ≤ s' → s' ≤ 3 → norm3 (follow prev r - prev) ≤ norm3 (moved r s' - prev) := by
  obtain ⟨h1, h2, -, h4⟩ := best_spec prev r turns (r, norm3 (r - prev)) rfl
  have hf : follow prev r = (turns.foldl (better prev r) (r, norm3 (r - prev))).1 := if_neg h
  rw [← hf] at h1 h2
  have h5 : ∀ s' : ℤ, -3 ≤ s' → s' ≤ 3 → norm3 (follow prev r - prev) ≤ norm3 (moved r s' - prev) := fun s' a b => by
    rw [← h1]; exact h4 s' ((mem_turns s').2 ⟨a, b⟩)
  rcases h2 with h2 | ⟨s, hs, h2⟩
  · exact ⟨0, by omega, h2.trans (moved_zero r h).symm, h5⟩
  · exact ⟨s, (mem_turns s).1 hs, h2, h5⟩

theorem turn_neg (a : ℝ) (e v : V3) : turn (-a) (-e) v = turn a e v := by
  simp only [turn, cos_neg, sin_neg, map_neg, LinearMap.neg_apply, neg_dotProduct, neg_smul, smul_neg, neg_neg, mul_neg]

theorem turn_add_turns (a : ℝ) (s : ℤ) (e v : V3) : turn (a + 2 * π * s) e v = turn a e v := by
  have h : a + 2 * π * s = a + s * (2 * π) := by ring
  simp only [turn, h, cos_add_int_mul_two_pi, sin_add_int_mul_two_pi]

theorem norm3_neg (v : V3) : norm3 (-v) = norm3 v := by simp [norm3]

/-- The turn of a multiple of a unit vector. -/
theorem turn_smul {e : V3} (he : Unit3 e) (a : ℝ) (v : V3) : turn (norm3 (a • e)) ((1 / norm3 (a • e)) • (a • e)) v = turn a e v := by
  rw [norm3_unit he]
  rcases lt_trichotomy a 0 with h | h | h
  · rw [abs_of_neg h, ← turn_neg a e]
    congr 1
    rw [smul_smul, ← neg_one_smul ℝ e]
    congr 1
    rw [one_div, inv_neg, neg_mul, inv_mul_cancel₀ h.ne]
  · subst h
    simp [turn]
  · rw [abs_of_pos h, smul_smul, one_div_mul_cancel h.ne', one_smul]

theorem moved_same (r : V3) (h : norm3 r ≠ 0) (s : ℤ) : SameRotation r (moved r s) := by
  have hp : 0 < norm3 r := lt_of_le_of_ne (norm3_nonneg r) (Ne.symm h)
  have he := unit_of_norm hp
  intro v
  unfold moved
  rw [turn_smul he, show π * 2 * (s : ℝ) = 2 * π * s by ring, turn_add_turns]

theorem follow_same (prev r : V3) : SameRotation r (follow prev r) := by
  by_cases h : norm3 r = 0
  · rw [show follow prev r = r from if_pos h]; exact fun v => rfl
  · obtain ⟨s, -, hs, -⟩ := follow_spec prev r h
    rw [hs]; exact moved_same r h s

theorem followAll_same (l : List V3) : ∀ prev, List.Forall₂ SameRotation l (followAll prev l) := by
  induction l with
  | nil => intro _; exact .nil
  | cons r rs ih => intro prev; exact .cons (follow_same prev r) (ih _)

/-- **C129** There are as many vectors as before, and each of them is the rotation it was. -/
theorem C129_rotations (l : List V3) : List.Forall₂ SameRotation l (unwrap l) := by
  cases l with
  | nil => exact .nil
  | cons r rs => exact .cons (fun v => rfl) (followAll_same rs r)

theorem followAll_chain (l : List V3) : ∀ prev, ∀ i, (h : i < l.length) →
    (followAll prev l)[i]? = some (follow ((prev :: followAll prev l).getD i 0) l[i]) := by
  induction l with
  | nil => intro _ i h; simp at h
  | cons r rs ih =>
    intro prev i h
    cases i with
    | zero => simp [followAll]
    | succ i =>
      have := ih (follow prev r) i (by simpa using h)
      simp only [followAll, List.getElem?_cons_succ, List.getElem_cons_succ] at *
      rw [this]
      simp

/-- **C129** The first vector is as it was. Every other that is not zero is the one of the vectors up to three turns away from
what it was that is nearest to the vector before it in the result. -/
theorem C129_nearest (l : List V3) (i : Nat) (p r r' : V3) (hr : l[i + 1]? = some r) (hr0 : r ≠ 0) (hp : (unwrap l)[i]? = some p)
    (hr' : (unwrap l)[i + 1]? = some r') : (unwrap l)[0]? = l[0]? ∧ ∃ s : ℤ, (-3 ≤ s ∧ s ≤ 3) ∧ Turned r r' s ∧
      ∀ (s' : ℤ) (q : V3), -3 ≤ s' → s' ≤ 3 → Turned r q s' → norm3 (r' - p) ≤ norm3 (q - p) := by
  cases l with
  | nil => simp at hr
  | cons r0 rs =>
    refine ⟨rfl, ?_⟩
    have hi : i < rs.length := by
      rw [List.getElem?_cons_succ] at hr
      exact (List.getElem?_eq_some_iff.1 hr).1
    have hri : rs[i] = r := by
      rw [List.getElem?_cons_succ] at hr
      exact (List.getElem?_eq_some_iff.1 hr).2
    have hn : norm3 r ≠ 0 := by
      intro h
      apply hr0
      have h2 := norm3_sq r
      rw [h] at h2
      have a0 : r 0 = 0 := by nlinarith [sq_nonneg (r 0), sq_nonneg (r 1), sq_nonneg (r 2)]
      have a1 : r 1 = 0 := by nlinarith [sq_nonneg (r 0), sq_nonneg (r 1), sq_nonneg (r 2)]
      have a2 : r 2 = 0 := by nlinarith [sq_nonneg (r 0), sq_nonneg (r 1), sq_nonneg (r 2)]
      funext j; fin_cases j
      · exact a0
      · exact a1
      · exact a2
    have h1 := followAll_chain rs r0 i hi
    have hpp : (r0 :: followAll r0 rs).getD i 0 = p := by
      have : (r0 :: followAll r0 rs)[i]? = some p := hp
      rw [List.getD, this]; rfl
    rw [hpp, hri] at h1
    have h2 : (unwrap (r0 :: rs))[i + 1]? = (followAll r0 rs)[i]? := by simp [unwrap]
    rw [h2, h1, Option.some.injEq] at hr'
    subst hr'
    obtain ⟨s, h3, h4, h5⟩ := follow_spec p r hn
    refine ⟨s, h3, by rw [h4]; exact moved_eq r hn s, fun s' q a b hq => ?_⟩
    have := h5 s' a b
    have h6 := moved_eq r hn s'
    unfold Turned at hq h6
    rw [hq, ← h6]; exact this

/-! ## Turning about one axis -/

theorem norm3_smul_sub {e : V3} (he : Unit3 e) (a b : ℝ) : norm3 (a • e - b • e) = |a - b| := by
  rw [← sub_smul, norm3_unit he]

/-- What is written for a column when the camera turns about `e`: if the true angle is `θ`, the vector that was read is `θ` and
some full turns, at most three, and the vector before is less than half a turn away, the true angle is found. -/
theorem follow_axis {e : V3} (he : Unit3 e) {θ θ' : ℝ} {m : ℤ} (hm : -3 ≤ m ∧ m ≤ 3) (h0 : θ + 2 * π * m ≠ 0)
    (hd : |θ - θ'| < π) : follow (θ' • e) ((θ + 2 * π * m) • e) = θ • e := by
  obtain ⟨a, ha⟩ : ∃ a, a = θ + 2 * π * m := ⟨_, rfl⟩
  rw [← ha] at h0 ⊢
  have hn : norm3 (a • e) ≠ 0 := by rw [norm3_unit he]; exact abs_ne_zero.2 h0
  obtain ⟨s, hs, h1, h2⟩ := follow_spec (θ' • e) (a • e) hn
  -- the sign of the angle that was read
  obtain ⟨g, hg, hga⟩ : ∃ g : ℤ, (g = 1 ∨ g = -1) ∧ ∀ s : ℤ, moved (a • e) s = (a + 2 * π * (g * s : ℤ)) • e := by
    rcases lt_or_gt_of_ne h0 with h | h
    · refine ⟨-1, Or.inr rfl, fun s => ?_⟩
      unfold moved
      rw [norm3_unit he, abs_of_neg h, smul_smul, smul_smul]
      congr 1
      push_cast
      field_simp
      ring
    · refine ⟨1, Or.inl rfl, fun s => ?_⟩
      unfold moved
      rw [norm3_unit he, abs_of_pos h, smul_smul, smul_smul]
      congr 1
      push_cast
      field_simp
  have hgg : g * g = 1 := by rcases hg with h | h <;> rw [h] <;> rfl
  have h3 := h2 (g * -m) (by rcases hg with h | h <;> rw [h] <;> omega) (by rcases hg with h | h <;> rw [h] <;> omega)
  rw [hga, ← mul_assoc, hgg, one_mul, norm3_smul_sub he, h1, hga, norm3_smul_sub he, ha] at h3
  rw [h1, hga, ha]
  have h4 : θ + 2 * π * m + 2 * π * ((-m : ℤ) : ℝ) - θ' = θ - θ' := by push_cast; ring
  rw [h4] at h3
  have h5 := lt_of_le_of_lt h3 hd
  -- whole turns that are shorter than one turn
  have h6 : m + g * s = 0 := by
    have h7 : (θ + 2 * π * m + 2 * π * ((g * s : ℤ) : ℝ) - θ') = (θ - θ') + 2 * π * ((m + g * s : ℤ) : ℝ) := by push_cast; ring
    rw [h7] at h5
    have hlt : |2 * π * ((m + g * s : ℤ) : ℝ)| < 2 * π := by
      have := abs_sub_abs_le_abs_sub (2 * π * ((m + g * s : ℤ) : ℝ)) (-(θ - θ'))
      rw [abs_neg, show 2 * π * ((m + g * s : ℤ) : ℝ) - -(θ - θ') = (θ - θ') + 2 * π * ((m + g * s : ℤ) : ℝ) by ring] at this
      linarith
    rw [abs_mul, abs_of_pos (by positivity : (0 : ℝ) < 2 * π)] at hlt
    have h8 : |((m + g * s : ℤ) : ℝ)| < 1 := by
      by_contra hc
      push Not at hc
      have := mul_le_mul_of_nonneg_left hc (by positivity : (0 : ℝ) ≤ 2 * π)
      linarith
    have h9 : |m + g * s| < 1 := by exact_mod_cast h8
    exact abs_eq_zero.1 (by have := abs_nonneg (m + g * s); omega)
  congr 1
  have h10 : (m : ℝ) + ((g * s : ℤ) : ℝ) = 0 := by exact_mod_cast h6
  linear_combination 2 * π * h10

/-- The vectors that are read when the camera turns about `e` by the angles `θ`, `m` being the full turns that are lost. -/
noncomputable def readings (e : V3) (l : List (ℝ × ℤ)) : List V3 := l.map fun x => (x.1 + 2 * π * x.2) • e

/-- The angles do not change by half a turn or more from one image to the next. -/
def Slow : List (ℝ × ℤ) → Prop := List.IsChain fun x y => |y.1 - x.1| < π

theorem followAll_axis {e : V3} (he : Unit3 e) (l : List (ℝ × ℤ)) : ∀ x0 : ℝ × ℤ, Slow (x0 :: l) →
    (∀ x ∈ l, (-3 ≤ x.2 ∧ x.2 ≤ 3) ∧ x.1 + 2 * π * x.2 ≠ 0) → followAll (x0.1 • e) (readings e l) = l.map fun x => x.1 • e := by
  induction l with
  | nil => intro _ _ _; rfl
  | cons y ys ih =>
    intro x0 hs hl
    have hs' := List.isChain_cons_cons.1 hs
    have h1 := follow_axis he (hl y (by simp)).1 (hl y (by simp)).2 hs'.1
    have h2 := ih y hs'.2 fun x hx => hl x (by simp [hx])
    simp only [readings, List.map_cons, followAll, h1] at *
    rw [h2]

/-- **C129, in part** If the camera turns about one axis, less than half a turn from one image to the next and never more than
three turns and a half away from zero, and it is never turned back to zero by full turns, then the result is the true angles,
although only the rotations are read. The first vector is taken as it is. -/
theorem C129_axis_partial {e : V3} (he : Unit3 e) (l : List (ℝ × ℤ)) (hs : Slow l)
    (h0 : ∀ x ∈ l.head?, x.2 = 0) (hl : ∀ x ∈ l, (-3 ≤ x.2 ∧ x.2 ≤ 3) ∧ x.1 + 2 * π * x.2 ≠ 0) :
    unwrap (readings e l) = l.map fun x => x.1 • e := by
  cases l with
  | nil => rfl
  | cons x xs =>
    have hx : x.2 = 0 := h0 x rfl
    simp only [readings, List.map_cons, unwrap, hx, Int.cast_zero, mul_zero, add_zero]
    rw [show (xs.map fun x : ℝ × ℤ => (x.1 + 2 * π * x.2) • e) = readings e xs from rfl,
      followAll_axis he xs x hs fun y hy => hl y (by simp [hy])]

/-- Two images, between which the camera turns through the half turn at which the vectors flip. -/
example : ∃ (e : V3) (l : List (ℝ × ℤ)), Unit3 e ∧ Slow l ∧ (∀ x ∈ l.head?, x.2 = 0) ∧
    (∀ x ∈ l, (-3 ≤ x.2 ∧ x.2 ≤ 3) ∧ x.1 + 2 * π * x.2 ≠ 0 ∧ |x.1 + 2 * π * x.2| ≤ π) ∧ ∃ x ∈ l, π < x.1 := by
  refine ⟨![0, 0, 1], [(3 * π / 4, 0), (5 * π / 4, -1)], by simp [Unit3], ?_, by simp, ?_, (5 * π / 4, -1), by simp, ?_⟩
  · refine List.isChain_pair.2 ?_
    rw [show 5 * π / 4 - 3 * π / 4 = π / 2 by ring, abs_of_pos (by positivity)]
    linarith [pi_pos]
  · intro x hx
    simp only [List.mem_cons, List.not_mem_nil, or_false] at hx
    rcases hx with rfl | rfl
    · refine ⟨by norm_num, ?_, ?_⟩
      · simp
      · simp only [Int.cast_zero, mul_zero, add_zero]
        rw [abs_of_pos (by positivity)]; linarith [pi_pos]
    · have h : 5 * π / 4 + 2 * π * ((-1 : ℤ) : ℝ) = -(3 * π / 4) := by push_cast; ring
      refine ⟨by norm_num, ?_, ?_⟩
      · rw [h]; have := pi_pos; intro hc; linarith
      · rw [h, abs_neg, abs_of_pos (by positivity)]; linarith [pi_pos]
  · simp only; linarith [pi_pos]

theorem followAll_append (l : List V3) (r : V3) : ∀ prev, followAll prev (l ++ [r]) =
    followAll prev l ++ [follow ((prev :: followAll prev l).getLastD 0) r] := by
  induction l with
  | nil => intro prev; simp [followAll]
  | cons x xs ih => intro prev; simp [followAll, ih]

/-- Fifteen images, a quarter of a turn apart, up to more than three turns and a half; and the turns that are lost. -/
noncomputable def spin : List (ℝ × ℤ) := (List.range 14).map fun k : Nat => ((k : ℝ) * (π / 2) + π / 4, -(((k : ℤ) + 2) / 4))

/-- The next image. -/
noncomputable def spinNext : ℝ × ℤ := (7 * π + π / 4, -4)

theorem spin_mem {x : ℝ × ℤ} (h : x ∈ spin) : ∃ k : Nat, k < 14 ∧ x = ((k : ℝ) * (π / 2) + π / 4, -(((k : ℤ) + 2) / 4)) := by
  obtain ⟨k, hk, rfl⟩ := List.mem_map.1 h
  exact ⟨k, by simpa using hk, rfl⟩

theorem spin_slow : Slow spin := by
  have h : ∀ n a : Nat, List.IsChain (fun x y : Nat => y = x + 1) (List.range' a n) := fun n a => List.isChain_range' a n 1
  unfold Slow spin
  rw [List.isChain_map]
  have := h 14 0
  rw [← List.range_eq_range'] at this
  refine this.imp ?_
  intro x y hxy
  rw [hxy]
  simp only
  rw [show ((x + 1 : ℕ) : ℝ) * (π / 2) + π / 4 - ((x : ℝ) * (π / 2) + π / 4) = π / 2 by push_cast; ring,
    abs_of_pos (by positivity)]
  linarith [pi_pos]

theorem spin_read {x : ℝ × ℤ} (h : x ∈ spin) : (-3 ≤ x.2 ∧ x.2 ≤ 3) ∧ x.1 + 2 * π * x.2 ≠ 0 ∧ |x.1 + 2 * π * x.2| ≤ π := by
  obtain ⟨k, hk, rfl⟩ := spin_mem h
  refine ⟨by constructor <;> omega, ?_⟩
  obtain ⟨j, hj, hj0⟩ : ∃ j : ℤ, (k : ℤ) - 4 * (((k : ℤ) + 2) / 4) = j ∧ (-2 ≤ j ∧ j ≤ 1) := ⟨_, rfl, by omega⟩
  have hjr : (k : ℝ) - 4 * ((((k : ℤ) + 2) / 4 : ℤ) : ℝ) = (j : ℝ) := by exact_mod_cast hj
  have he : (k : ℝ) * (π / 2) + π / 4 + 2 * π * ((-(((k : ℤ) + 2) / 4) : ℤ) : ℝ) = (j : ℝ) * (π / 2) + π / 4 := by
    push_cast
    linear_combination (π / 2) * hjr
  simp only [he]
  have hp := pi_pos
  have h2 : (-2 : ℝ) ≤ j := by exact_mod_cast hj0.1
  have h3 : (j : ℝ) ≤ 1 := by exact_mod_cast hj0.2
  constructor
  · intro hc
    have h4 : (2 * (j : ℝ) + 1) * (π / 4) = 0 := by linear_combination hc
    rcases mul_eq_zero.1 h4 with h5 | h5
    · have h6 : 2 * j + 1 = 0 := by exact_mod_cast h5
      omega
    · linarith
  · rw [abs_le]
    constructor <;> nlinarith

theorem norm3_axis (a : ℝ) : norm3 (a • (![0, 0, 1] : V3)) = |a| := norm3_unit (by simp [Unit3]) a

/-- **C129** After three turns and a half the next turn is not found: the camera turns a quarter of a turn from each of fifteen
images to the next, and the vectors of the result jump by three quarters of a turn, from one to the last. -/
theorem C129_turns_counterexample : ∃ (e : V3) (l : List (ℝ × ℤ)), Unit3 e ∧ Slow l ∧ (∀ x ∈ l.head?, x.2 = 0) ∧
    (∀ x ∈ l, |x.1 + 2 * π * x.2| ≤ π) ∧ (unwrap (readings e l)).getLast? = some ((5 * π + π / 4) • e) ∧
    (unwrap (readings e l)).dropLast.getLast? = some ((6 * π + 3 * π / 4) • e) ∧ (l.map fun x => x.1).getLast? = some (7 * π + π / 4) := by
  have he : Unit3 ![0, 0, 1] := by simp [Unit3]
  have hp := pi_pos
  obtain ⟨x0, xs, hx⟩ : ∃ x0 xs, spin = x0 :: xs := ⟨_, _, List.map_cons⟩
  have hx0 : x0.2 = 0 := by
    have : spin.head? = some (((0 : ℕ) : ℝ) * (π / 2) + π / 4, -((((0 : ℕ) : ℤ) + 2) / 4)) := rfl
    rw [hx, List.head?_cons, Option.some.injEq] at this
    rw [this]; simp
  have hlast : spin.getLast? = some (((13 : ℕ) : ℝ) * (π / 2) + π / 4, -((((13 : ℕ) : ℤ) + 2) / 4)) := by
    unfold spin
    rw [List.getLast?_map]
    rfl
  have hpart := C129_axis_partial he spin spin_slow (by rw [hx]; simpa using hx0) fun x h => ⟨(spin_read h).1, (spin_read h).2.1⟩
  have hun : unwrap (readings ![0, 0, 1] (spin ++ [spinNext])) = unwrap (readings ![0, 0, 1] spin) ++
      [follow ((6 * π + 3 * π / 4) • ![0, 0, 1]) ((spinNext.1 + 2 * π * spinNext.2) • ![0, 0, 1])] := by
    have h1 : readings ![0, 0, 1] (spin ++ [spinNext]) = readings ![0, 0, 1] spin ++ [(spinNext.1 + 2 * π * spinNext.2) • ![0, 0, 1]] := by
      simp [readings]
    have h2 : (unwrap (readings ![0, 0, 1] spin)).getLast? = some ((6 * π + 3 * π / 4) • ![0, 0, 1]) := by
      rw [hpart, List.getLast?_map, hlast, Option.map_some]
      congr 2
      push_cast
      ring
    rw [h1]
    rw [hx] at h2 ⊢
    simp only [readings, List.map_cons, List.cons_append, unwrap] at h2 ⊢
    rw [followAll_append]
    congr 3
    rw [List.getLastD_eq_getLast?, h2]
    rfl
  have hstep : follow ((6 * π + 3 * π / 4) • ![0, 0, 1]) ((spinNext.1 + 2 * π * spinNext.2) • ![0, 0, 1]) = (5 * π + π / 4) • (![0, 0, 1] : V3) := by
    have ha : spinNext.1 + 2 * π * spinNext.2 = -(3 * π / 4) := by simp [spinNext]; ring
    rw [ha]
    have hn : norm3 (-(3 * π / 4) • (![0, 0, 1] : V3)) = 3 * π / 4 := by rw [norm3_axis, abs_neg, abs_of_pos (by positivity)]
    have hmv : ∀ s : ℤ, moved (-(3 * π / 4) • (![0, 0, 1] : V3)) s = (-(3 * π / 4) - 2 * π * s) • ![0, 0, 1] := by
      intro s
      unfold moved
      rw [hn, smul_smul, smul_smul]
      congr 1
      field_simp
      ring
    obtain ⟨s, hs, h1, h2⟩ := follow_spec ((6 * π + 3 * π / 4) • ![0, 0, 1]) (-(3 * π / 4) • (![0, 0, 1] : V3)) (by rw [hn]; positivity)
    have h3 := h2 (-3) (by norm_num) (by norm_num)
    rw [h1, hmv, hmv, ← sub_smul, ← sub_smul, norm3_axis, norm3_axis] at h3
    have h4 : (-3 : ℝ) ≤ s := by exact_mod_cast hs.1
    have h5 : s = -3 := by
      by_contra hc
      have h6 : (-2 : ℝ) ≤ s := by
        have : -2 ≤ s := by omega
        exact_mod_cast this
      rw [abs_of_nonpos (by nlinarith), abs_of_nonpos (by push_cast; nlinarith)] at h3
      push_cast at h3
      nlinarith
    rw [h1, hmv, h5]
    congr 1
    push_cast
    ring
  refine ⟨![0, 0, 1], spin ++ [spinNext], he, ?_, ?_, ?_, ?_, ?_, ?_⟩
  · unfold Slow
    rw [List.isChain_append]
    refine ⟨spin_slow, List.isChain_singleton _, ?_⟩
    intro x hx y hy
    rw [hlast] at hx
    simp only [Option.mem_def, Option.some.injEq, List.head?_cons] at hx hy
    rw [← hx, ← hy]
    simp only [spinNext]
    rw [show 7 * π + π / 4 - (((13 : ℕ) : ℝ) * (π / 2) + π / 4) = π / 2 by push_cast; ring, abs_of_pos (by positivity)]
    linarith
  · rw [hx]; simpa using hx0
  · intro x hx'
    rcases List.mem_append.1 hx' with h | h
    · exact (spin_read h).2.2
    · simp only [List.mem_cons, List.not_mem_nil, or_false] at h
      rw [h, show spinNext.1 + 2 * π * spinNext.2 = -(3 * π / 4) by simp [spinNext]; ring, abs_neg, abs_of_pos (by positivity)]
      linarith
  · rw [hun, List.getLast?_concat, hstep]
  · rw [hun, List.dropLast_concat, hpart, List.getLast?_map, hlast, Option.map_some]
    congr 2
    push_cast
    ring
  · rw [List.map_append, List.map_cons, List.map_nil, List.getLast?_concat]
    rfl

/-- **C129** When a camera that turns comes back to zero, the turns are lost: the vector zero has no direction. Here it turns a
quarter of a turn from each image to the next; at the end of a full turn the result jumps back to zero. -/
theorem C129_zero_counterexample : ∃ (e : V3) (l : List (ℝ × ℤ)), Unit3 e ∧ Slow l ∧ (∀ x ∈ l.head?, x.2 = 0) ∧
    (∀ x ∈ l, |x.1 + 2 * π * x.2| ≤ π) ∧ (l.map fun x => x.1) = [π / 2, π, 3 * π / 2, 2 * π] ∧
    unwrap (readings e l) = [(π / 2) • e, π • e, (3 * π / 2) • e, 0] := by
  have he : Unit3 ![0, 0, 1] := by simp [Unit3]
  have hp := pi_pos
  refine ⟨![0, 0, 1], [(π / 2, 0), (π, 0), (3 * π / 2, -1), (2 * π, -1)], he, ?_, by simp, ?_, rfl, ?_⟩
  · unfold Slow
    simp only [List.isChain_cons_cons, List.isChain_singleton, and_true]
    refine ⟨?_, ?_, ?_⟩
    · rw [show π - π / 2 = π / 2 by ring, abs_of_pos (by positivity)]; linarith
    · rw [show 3 * π / 2 - π = π / 2 by ring, abs_of_pos (by positivity)]; linarith
    · rw [show 2 * π - 3 * π / 2 = π / 2 by ring, abs_of_pos (by positivity)]; linarith
  · intro x hx
    simp only [List.mem_cons, List.not_mem_nil, or_false] at hx
    rcases hx with rfl | rfl | rfl | rfl
    · simp only [Int.cast_zero, mul_zero, add_zero]; rw [abs_of_pos (by positivity)]; linarith
    · simp only [Int.cast_zero, mul_zero, add_zero]; rw [abs_of_pos hp]
    · rw [show 3 * π / 2 + 2 * π * ((-1 : ℤ) : ℝ) = -(π / 2) by push_cast; ring, abs_neg, abs_of_pos (by positivity)]; linarith
    · rw [show 2 * π + 2 * π * ((-1 : ℤ) : ℝ) = 0 by push_cast; ring, abs_zero]; exact hp.le
  · have h1 : follow ((π / 2) • ![0, 0, 1]) ((π + 2 * π * ((0 : ℤ) : ℝ)) • ![0, 0, 1]) = π • (![0, 0, 1] : V3) :=
      follow_axis he (by norm_num) (by simp)
        (by rw [show π - π / 2 = π / 2 by ring, abs_of_pos (by positivity)]; linarith)
    have h2 : follow (π • ![0, 0, 1]) ((3 * π / 2 + 2 * π * ((-1 : ℤ) : ℝ)) • ![0, 0, 1]) = (3 * π / 2) • (![0, 0, 1] : V3) :=
      follow_axis he (by norm_num) (by push_cast; intro hc; linarith)
        (by rw [show 3 * π / 2 - π = π / 2 by ring, abs_of_pos (by positivity)]; linarith)
    have h3 : ∀ prev, follow prev ((2 * π + 2 * π * ((-1 : ℤ) : ℝ)) • ![0, 0, 1]) = 0 := by
      intro prev
      rw [show 2 * π + 2 * π * ((-1 : ℤ) : ℝ) = 0 by push_cast; ring, zero_smul]
      exact if_pos (by simp [norm3])
    simp only [readings, List.map_cons, List.map_nil, unwrap, followAll]
    rw [show π / 2 + 2 * π * ((0 : ℤ) : ℝ) = π / 2 by push_cast; ring, h1, h2, h3]

end Kalibr.Icc
