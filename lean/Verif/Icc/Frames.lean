import Verif.Common
import Verif.Tactics
import Mathlib.Data.List.GetD
import Mathlib.Tactic.Linarith

/-!
# The images that a camera to inertial calibration uses (C132)

`IccCamera.initPoseSplineFromCamera` (`aslam_offline_calibration/kalibr/python/kalibr_imu_camera_calibration/IccSensors.py`, cited as
`IS.py`, 276-318) and `addCameraErrorTerms` (330-392). Times are rationals. The spline has as its range the first and the last time it was
made from (C103).
-/

namespace Kalibr.Icc.Frames

/-- An image: its time stamp, and the corners that were seen, with their image points. -/
structure Image where
  stamp : ℚ
  corners : List (Nat × (ℚ × ℚ))

/-- The times of the spline (`IS.py` 281, 289): the images, moved by the first guess of the shift, and twice the padding on either
side. Without an image `times[0]` is an exception. -/
def splineTimes (prior padding : ℚ) : List Image → Out (List ℚ)
  | [] => .raise
  | i :: is =>
    let ts := (i :: is).map fun x => x.stamp + prior
    .ok ((ts.headD 0 - padding * 2) :: ts ++ [ts.getLastD 0 + padding * 2])

/-- The range of the spline: the first and the last of the times. -/
def range (ts : List ℚ) : ℚ × ℚ := (ts.headD 0, ts.getLastD 0)

/-- The time of an image on the spline (`IS.py` 342): `dv` is the value of `cameraTimeToImuTimeDv`. -/
def frameTime (dv prior : ℚ) (i : Image) : ℚ := dv + i.stamp + prior

/-- `addCameraErrorTerms` (`IS.py` 341-391): for every image that is used, and every corner seen in it, the time, the corner and the
image point. -/
def errorTerms (r : ℚ × ℚ) (dv prior : ℚ) : List Image → List (List (ℚ × Nat × (ℚ × ℚ)))
  | [] => []
  | i :: is =>
    if frameTime dv prior i ≤ r.1 ∨ frameTime dv prior i ≥ r.2 then errorTerms r dv prior is
    else (i.corners.map fun c => (frameTime dv prior i, c)) :: errorTerms r dv prior is

/-- The number that is printed (`IS.py` 391): `len(self.targetObservations)`. -/
def printed (is : List Image) : Nat := is.length

/-- The images come in the order of time. -/
def Sorted (is : List Image) : Prop := is.Pairwise fun a b => a.stamp < b.stamp

/-- **C132** Of every camera exactly the images are used whose time is strictly inside of the range of the spline, in their order, and
of each of them every corner that was seen, at this time. -/
theorem C132_used (r : ℚ × ℚ) (dv prior : ℚ) (is : List Image) :
    errorTerms r dv prior is = (is.filter fun i => decide (r.1 < dv + i.stamp + prior ∧ dv + i.stamp + prior < r.2)).map
      fun i => i.corners.map fun c => (dv + i.stamp + prior, c) := by
  induction is with
  | nil => rfl
  | cons i is ih =>
    unfold errorTerms
    have hiff : (frameTime dv prior i ≤ r.1 ∨ frameTime dv prior i ≥ r.2) ↔ ¬ (r.1 < dv + i.stamp + prior ∧ dv + i.stamp + prior < r.2) := by
      unfold frameTime
      rw [not_and_or, not_lt, not_lt]
    by_cases h : r.1 < dv + i.stamp + prior ∧ dv + i.stamp + prior < r.2
    · rw [if_neg (by rw [hiff, not_not]; exact h), List.filter_cons_of_pos (by simpa using h), ih]; rfl
    · rw [if_pos (hiff.2 h), List.filter_cons_of_neg (by simpa using h), ih]

theorem last_ge {is : List Image} (h : Sorted is) {i : Image} (hi : i ∈ is) (d : Image) : i.stamp ≤ (is.getLastD d).stamp := by
  induction is generalizing d i with
  | nil => simp at hi
  | cons a l ih =>
    rcases List.mem_cons.1 hi with rfl | hi
    · cases l with
      | nil => simp
      | cons b l =>
        have hb := (List.pairwise_cons.1 h).1 b (by simp)
        have := ih (List.pairwise_cons.1 h).2 (i := b) (by simp) i
        simp only [List.getLastD_cons] at this ⊢
        linarith
    · rw [List.getLastD_cons]
      exact ih (List.pairwise_cons.1 h).2 hi a

theorem range_eq {prior padding : ℚ} {i : Image} {is : List Image} : ∃ ts, splineTimes prior padding (i :: is) = .ok ts ∧
    range ts = (i.stamp + prior - padding * 2, ((i :: is).getLastD i).stamp + prior + padding * 2) := by
  refine ⟨_, rfl, ?_⟩
  have hlast : ∀ (l : List Image) (d : Image), (l.map fun x => x.stamp + prior).getLastD (d.stamp + prior) = (l.getLastD d).stamp + prior := by
    intro l
    induction l with
    | nil => intro d; rfl
    | cons a l ih => intro d; rw [List.map_cons, List.getLastD_cons, List.getLastD_cons, ih]
  simp only [range, List.map_cons, List.headD_cons, List.getLastD_cons, List.cons_append]
  rw [hlast]
  simp [List.getLastD_eq_getLast?]

/-- **C132** With a padding, every image of the first camera is used, and still would be for any change of the time shift of less than
twice the padding. -/
theorem C132_first_camera {prior padding dv : ℚ} {is : List Image} (hs : Sorted is) (hd : -(padding * 2) < dv ∧ dv < padding * 2)
    (hne : is ≠ []) : ∃ ts, splineTimes prior padding is = .ok ts ∧
      errorTerms (range ts) dv prior is = is.map fun i => i.corners.map fun c => (dv + i.stamp + prior, c) := by
  cases is with
  | nil => exact absurd rfl hne
  | cons a is =>
    obtain ⟨ts, h1, h2⟩ := range_eq (prior := prior) (padding := padding) (i := a) (is := is)
    refine ⟨ts, h1, ?_⟩
    rw [C132_used, List.filter_eq_self.2]
    intro i hi
    have hl := last_ge hs hi a
    have hf : a.stamp ≤ i.stamp := by
      rcases List.mem_cons.1 hi with rfl | hi
      · exact le_refl _
      · exact ((List.pairwise_cons.1 hs).1 i hi).le
    rw [h2]
    simp only [decide_eq_true_eq]
    constructor <;> linarith [hd.1, hd.2]

example : ∃ (is : List Image) (padding : ℚ), Sorted is ∧ (-(padding * 2) < 0 ∧ 0 < padding * 2) ∧ is.length = 2 :=
  ⟨[⟨0, [(0, 1, 1)]⟩, ⟨1, []⟩], 1 / 50, by simp [Sorted], by norm_num, rfl⟩

/-- **C132** Without a padding (`--timeoffset-padding 0`) the first and the last image are left out. -/
theorem C132_padding_counterexample (prior : ℚ) (a : Image) (is : List Image) : ∃ ts,
    splineTimes prior 0 (a :: is) = .ok ts ∧ ∀ ts', ts' ∈ errorTerms (range ts) 0 prior (a :: is) →
      ∀ x ∈ ts', x.1 ≠ a.stamp + prior ∧ x.1 ≠ ((a :: is).getLastD a).stamp + prior := by
  obtain ⟨ts, h1, h2⟩ := range_eq (prior := prior) (padding := 0) (i := a) (is := is)
  refine ⟨ts, h1, ?_⟩
  intro ts' hts x hx
  rw [C132_used, List.mem_map] at hts
  obtain ⟨i, hi, rfl⟩ := hts
  rw [List.mem_map] at hx
  obtain ⟨c, -, rfl⟩ := hx
  rw [List.mem_filter, h2, decide_eq_true_eq] at hi
  obtain ⟨-, hlo, hhi⟩ := hi
  simp only at hlo hhi ⊢
  exact ⟨by intro hc; linarith, by intro hc; linarith⟩

/-- **C132** The number of images that the program says it has added is the number of those that were found, used or not: for another
camera, which began earlier, it is larger. -/
theorem C132_printed_counterexample : ∃ (first other : List Image) (ts : List ℚ), Sorted first ∧ Sorted other ∧
    splineTimes 0 (1 / 50) first = .ok ts ∧ (errorTerms (range ts) 0 0 other).length < printed other := by
  refine ⟨[⟨1, []⟩, ⟨2, []⟩], [⟨0, []⟩, ⟨1, []⟩, ⟨2, []⟩], _, by simp [Sorted], by simp [Sorted], rfl, ?_⟩
  rw [C132_used]
  simp [range, printed]
  norm_num

/-- **C132** It is right exactly if all of them are inside. -/
theorem C132_printed_iff (r : ℚ × ℚ) (dv prior : ℚ) (is : List Image) : (errorTerms r dv prior is).length = printed is ↔
    ∀ i ∈ is, r.1 < dv + i.stamp + prior ∧ dv + i.stamp + prior < r.2 := by
  rw [C132_used, List.length_map, printed, List.length_filter_eq_length_iff]
  simp only [decide_eq_true_eq]

end Kalibr.Icc.Frames
