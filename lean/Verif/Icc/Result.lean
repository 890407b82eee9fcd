import Verif.App.ConfigProps
import Verif.Kinematics.Transform
import Verif.Kinematics.R2Quat
import Verif.Tactics
import Mathlib.Algebra.Group.TypeTags.Basic

/-!
# The results of the camera to inertial calibration (C130)

`IccCameraChain` (`aslam_offline_calibration/kalibr/python/kalibr_imu_camera_calibration/IccSensors.py`, cited as `IS.py`, 486-553),
`IccCalibrator.saveCamChainParametersYaml` (`IccCalibrator.py`, cited as `IC.py`, 211-234) and the pose of a unit (`IS.py` 575-582 and
775-780). Transformations of the chain are a group; those of the units are matrices over the reals. The file is the dictionary
of `Verif.App.Config`; where an exception of the dictionary leaves the program without a message it is that exception.
-/

namespace Kalibr.Icc

open App.Config

variable {M : Type} [Group M]

/-- A camera of the chain after the optimisation: the value of `T_c_b_Dv`, for the first camera from the unit to the camera and for
the others from the camera before (`IS.py` 315-327), the value of `cameraTimeToImuTimeDv`, and `timeshiftCamToImuPrior`. -/
structure SensorCam (M : Type) where
  T : M
  time : ℚ
  prior : ℚ

/-- `getResultBaseline` (`IS.py` 486-500), without the norm. -/
def resultBaseline (cams : List (SensorCam M)) (a b : Nat) : Py M :=
  match cams[max a b]? with
  | none => .error .index
  | some c => .ok (if a > b then c.T⁻¹ else c.T)

/-- `getResultTrafoImuToCam` (`IS.py` 502-515): `self.camList[1:camNr+1]`. -/
def resultTrafo (cams : List (SensorCam M)) (n : Nat) : Py M :=
  match cams with
  | [] => .error .index
  | c :: cs => .ok ((cs.take n).foldl (fun T cam => cam.T * T) c.T)

/-- `getResultTimeShift` (`IS.py` 517-518). -/
def resultTimeShift (c : SensorCam M) : ℚ := c.time + c.prior

/-- `addCameraChainErrorTerms` (`IS.py` 534-553): the transformation from the unit that the error terms of each camera are made
with. `T_chain` is that of the camera before. -/
def errorTrafosFrom (T : M) : List (SensorCam M) → List M
  | [] => []
  | c :: cs => (c.T * T) :: errorTrafosFrom (c.T * T) cs

/-- The same from the first camera. -/
def errorTrafos : List (SensorCam M) → List M
  | [] => []
  | c :: cs => c.T :: errorTrafosFrom c.T cs

/-- The time at which the spline is evaluated for an image: `cameraTimeToImuTimeDv + obs.time() + timeshiftCamToImuPrior`
(`IS.py` 342). -/
def frameTime (c : SensorCam M) (stamp : ℚ) : ℚ := c.time + stamp + c.prior

/-- `setExtrinsicsImuToCam` (ConfigReader.py 699-703). -/
def setExtrinsicsImu (c : Chain M) (n : Nat) (T : M) : Py (Chain M) := modify c n fun d => { d with T_cam_imu := some T }

/-- `setTimeshiftCamImu` (ConfigReader.py 720-722, 708-713), for a `float`. -/
def setTimeshift (c : Chain M) (n : Nat) (t : ℚ) : Py (Chain M) :=
  if n ≥ c.length then .error .runtime else modify c n fun d => { d with timeshift := some (.flt t) }

/-- One pass of the loop of `saveCamChainParametersYaml`, the baseline (`IC.py` 217-220). -/
def saveBaseline (cams : List (SensorCam M)) (c : Chain M) (n : Nat) : Py (Chain M) :=
  if n > 0 then (do
    let T ← resultBaseline cams (n - 1) n
    setExtrinsics c n T)
  else .ok c

/-- One pass of the loop of `saveCamChainParametersYaml` (`IC.py` 216-229). -/
def saveOne (cams : List (SensorCam M)) (noTimeCalibration : Bool) (c : Chain M) (n : Nat) : Py (Chain M) := do
  let c ← saveBaseline cams c n
  let T ← resultTrafo cams n
  let c ← setExtrinsicsImu c n T
  if noTimeCalibration then .ok c
  else match cams[n]? with
    | none => .error .index
    | some cam => setTimeshift c n (resultTimeShift cam)

/-- `saveCamChainParametersYaml` (`IC.py` 211-234): the chain that was read from the file is changed and written. -/
def saveCamChain (cams : List (SensorCam M)) (noTimeCalibration : Bool) (c : Chain M) : Py (Chain M) :=
  (List.range cams.length).foldlM (saveOne cams noTimeCalibration) c

/-! ## Proofs -/

theorem errorTrafosFrom_get (cs : List (SensorCam M)) : ∀ (T : M) (n : Nat), n < cs.length →
    (errorTrafosFrom T cs)[n]? = some ((cs.take (n + 1)).foldl (fun T cam => cam.T * T) T) := by
  induction cs with
  | nil => intro T n h; simp at h
  | cons c cs ih =>
    intro T n h
    cases n with
    | zero => simp [errorTrafosFrom]
    | succ n => simpa [errorTrafosFrom] using ih (c.T * T) n (by simpa using h)

/-- **C130** The transformation that is reported and written for a camera is the one its error terms were made with. -/
theorem C130_trafo (cams : List (SensorCam M)) (n : Nat) (h : n < cams.length) :
    ∃ T, resultTrafo cams n = .ok T ∧ (errorTrafos cams)[n]? = some T := by
  cases cams with
  | nil => simp at h
  | cons c cs =>
    refine ⟨_, rfl, ?_⟩
    cases n with
    | zero => simp [errorTrafos]
    | succ n => simpa [errorTrafos] using errorTrafosFrom_get cs c.T n (by simpa using h)

/-- **C130** The time shift that is reported is the one by which the times of the images were moved. -/
theorem C130_time (c : SensorCam M) (stamp : ℚ) : frameTime c stamp = stamp + resultTimeShift c := by
  unfold frameTime resultTimeShift; ring

omit [Group M] in
theorem take_succ_foldl {β : Type} (f : β → SensorCam M → β) (cs : List (SensorCam M)) (n : Nat) (b : β) (h : n < cs.length) :
    (cs.take (n + 1)).foldl f b = f ((cs.take n).foldl f b) cs[n] := by
  rw [List.take_add_one, List.foldl_append, List.getElem?_eq_getElem h]
  rfl

/-- **C130** The baseline of two cameras that follow each other is the transformation between them, in both directions. -/
theorem C130_baseline (cams : List (SensorCam M)) (n : Nat) (h : n + 1 < cams.length) : ∃ X Y : M,
    resultTrafo cams n = .ok X ∧ resultTrafo cams (n + 1) = .ok Y ∧
    resultBaseline cams n (n + 1) = .ok (Y * X⁻¹) ∧ resultBaseline cams (n + 1) n = .ok (X * Y⁻¹) := by
  cases cams with
  | nil => simp at h
  | cons c cs =>
    have hn : n < cs.length := by simpa using h
    refine ⟨_, _, rfl, rfl, ?_, ?_⟩
    · unfold resultBaseline
      rw [Nat.max_eq_right (by omega), List.getElem?_cons_succ, List.getElem?_eq_getElem hn, take_succ_foldl _ _ _ _ hn]
      simp
    · unfold resultBaseline
      rw [Nat.max_eq_left (by omega), List.getElem?_cons_succ, List.getElem?_eq_getElem hn, take_succ_foldl _ _ _ _ hn]
      simp

/-- **C130** For two cameras that do not follow each other, and for one camera, it is another transformation. -/
theorem C130_baseline_counterexample : ∃ (cams : List (SensorCam (Multiplicative ℤ))) (X Y : Multiplicative ℤ),
    resultTrafo cams 0 = .ok X ∧ resultTrafo cams 2 = .ok Y ∧ resultBaseline cams 0 2 ≠ .ok (Y * X⁻¹) ∧
    resultBaseline cams 2 2 ≠ .ok (Y * Y⁻¹) :=
  ⟨[⟨.ofAdd 1, 0, 0⟩, ⟨.ofAdd 2, 0, 0⟩, ⟨.ofAdd 4, 0, 0⟩], .ofAdd 1, .ofAdd 7, by decide, by decide, by decide, by decide⟩

/-- What the file has to hold for camera `i`. -/
structure Written (cams : List (SensorCam M)) (noTime : Bool) (i : Nat) (old new : CamDict M) : Prop where
  /-- the transformation from the unit -/
  imu : ∃ T, resultTrafo cams i = .ok T ∧ new.T_cam_imu = some T
  /-- the transformation from the camera before -/
  last : ∀ X Y, 0 < i → resultTrafo cams (i - 1) = .ok X → resultTrafo cams i = .ok Y → new.T_cn_cnm1 = some (Y * X⁻¹)
  /-- nothing of that sort for the first camera -/
  first : i = 0 → new.T_cn_cnm1 = old.T_cn_cnm1
  /-- the time shift -/
  time : ∀ c, cams[i]? = some c → new.timeshift = if noTime then old.timeshift else some (.flt (resultTimeShift c))
  /-- the parameters of the camera -/
  same : new.camera_model = old.camera_model ∧ new.intrinsics = old.intrinsics ∧ new.distortion_model = old.distortion_model ∧
    new.distortion_coeffs = old.distortion_coeffs ∧ new.resolution = old.resolution ∧ new.cam_overlaps = old.cam_overlaps

theorem saveOne_spec (cams : List (SensorCam M)) (noTime : Bool) {c : Chain M} {ds : List (CamDict M)} (h : Holds c ds)
    (hl : ds.length = cams.length) {n : Nat} (hn : n < cams.length) :
    ∃ c' ds', saveOne cams noTime c n = .ok c' ∧ Holds c' ds' ∧ ds'.length = ds.length ∧
      (∀ i, i ≠ n → ds'[i]? = ds[i]?) ∧ ∀ d d', ds[n]? = some d → ds'[n]? = some d' → Written cams noTime n d d' := by
  have hnd : n < ds.length := by omega
  obtain ⟨T, hT, -⟩ := C130_trafo cams n hn
  -- the first step
  obtain ⟨c1, f1, h1, hh1, hf1⟩ : ∃ (c1 : Chain M) (f1 : CamDict M → CamDict M),
      saveBaseline cams c n = .ok c1 ∧ Holds c1 (ds.set n (f1 ds[n])) ∧
      ((∀ d, (f1 d).T_cam_imu = d.T_cam_imu ∧ (f1 d).timeshift = d.timeshift ∧ (f1 d).camera_model = d.camera_model ∧
        (f1 d).intrinsics = d.intrinsics ∧ (f1 d).distortion_model = d.distortion_model ∧
        (f1 d).distortion_coeffs = d.distortion_coeffs ∧ (f1 d).resolution = d.resolution ∧ (f1 d).cam_overlaps = d.cam_overlaps) ∧
       (n = 0 → ∀ d, (f1 d).T_cn_cnm1 = d.T_cn_cnm1) ∧
       (0 < n → ∀ d, ∃ B, resultBaseline cams (n - 1) n = .ok B ∧ (f1 d).T_cn_cnm1 = some B)) := by
    by_cases h0 : n > 0
    · have hb : ∃ B, resultBaseline cams (n - 1) n = .ok B := by
        unfold resultBaseline
        rw [Nat.max_eq_right (by omega), List.getElem?_eq_getElem hn]
        exact ⟨_, rfl⟩
      obtain ⟨B, hB⟩ := hb
      obtain ⟨c1, h1, h2⟩ := h.modify hnd fun d => { d with T_cn_cnm1 := some B }
      refine ⟨c1, fun d => { d with T_cn_cnm1 := some B }, ?_, h2, fun d => ⟨rfl, rfl, rfl, rfl, rfl, rfl, rfl, rfl⟩, fun hc => absurd hc (by omega), fun _ d => ⟨B, hB, rfl⟩⟩
      unfold saveBaseline
      rw [if_pos h0, hB]
      show setExtrinsics c n B = .ok c1
      unfold setExtrinsics
      rw [if_neg (by omega), h1]
    · refine ⟨c, id, if_neg h0, ?_, fun d => by simp, fun _ d => rfl, fun hc => absurd hc h0⟩
      simpa using h
  have hn1 : n < (ds.set n (f1 ds[n])).length := by simpa using hnd
  obtain ⟨c2, h2, hh2⟩ := hh1.modify hn1 fun d => { d with T_cam_imu := some T }
  rw [List.getElem_set_self, List.set_set] at hh2
  obtain ⟨e2, he2⟩ : ∃ e2 : CamDict M, e2 = { f1 ds[n] with T_cam_imu := some T } := ⟨_, rfl⟩
  obtain ⟨ds2, hds2⟩ : ∃ ds2, ds2 = ds.set n e2 := ⟨_, rfl⟩
  have hh2 : Holds c2 ds2 := by rw [hds2, he2]; exact hh2
  have hn2 : n < ds2.length := by rw [hds2]; simpa using hnd
  have hg2 : ds2[n] = e2 := by simp only [hds2, List.getElem_set_self]
  obtain ⟨c3, f3, h3, hh3, hf3⟩ : ∃ (c3 : Chain M) (f3 : CamDict M → CamDict M),
      (if noTime then (.ok c2 : Py (Chain M)) else match cams[n]? with
        | none => .error .index
        | some cam => setTimeshift c2 n (resultTimeShift cam)) = .ok c3 ∧
      Holds c3 (ds2.set n (f3 e2)) ∧
      ((∀ d, (f3 d).T_cam_imu = d.T_cam_imu ∧ (f3 d).T_cn_cnm1 = d.T_cn_cnm1 ∧ (f3 d).camera_model = d.camera_model ∧
        (f3 d).intrinsics = d.intrinsics ∧ (f3 d).distortion_model = d.distortion_model ∧
        (f3 d).distortion_coeffs = d.distortion_coeffs ∧ (f3 d).resolution = d.resolution ∧ (f3 d).cam_overlaps = d.cam_overlaps) ∧
       ∀ d, (f3 d).timeshift = if noTime then d.timeshift else some (.flt (resultTimeShift cams[n]))) := by
    cases noTime with
    | true => exact ⟨c2, id, rfl, by rw [id, ← hg2, List.set_getElem_self]; exact hh2, fun d => by simp, fun d => by simp⟩
    | false =>
      obtain ⟨c3, h3, hh3⟩ := hh2.modify hn2 fun d => { d with timeshift := some (.flt (resultTimeShift cams[n])) }
      rw [hg2] at hh3
      refine ⟨c3, fun d => { d with timeshift := some (.flt (resultTimeShift cams[n])) }, ?_, hh3, fun d => ⟨rfl, rfl, rfl, rfl, rfl, rfl, rfl, rfl⟩, fun d => by simp⟩
      rw [List.getElem?_eq_getElem hn]
      show setTimeshift c2 n (resultTimeShift cams[n]) = .ok c3
      unfold setTimeshift
      rw [if_neg (by rw [hh2.len]; omega), h3]
  refine ⟨c3, _, ?_, hh3, by simp [hds2], ?_, ?_⟩
  · unfold saveOne
    rw [h1, hT]
    show (setExtrinsicsImu c1 n T >>= fun c => _) = _
    rw [show setExtrinsicsImu c1 n T = .ok c2 from h2]
    exact h3
  · intro i hi
    rw [List.getElem?_set_ne (Ne.symm hi), hds2, List.getElem?_set_ne (Ne.symm hi)]
  · intro d d' hd hd'
    rw [List.getElem?_eq_getElem hnd, Option.some.injEq] at hd
    rw [List.getElem?_set_self hn2, Option.some.injEq] at hd'
    subst hd
    subst hd'
    subst he2
    obtain ⟨a3, b3⟩ := hf3
    obtain ⟨a1, b1, b1'⟩ := hf1
    refine ⟨⟨T, hT, ?_⟩, ?_, ?_, ?_, ?_⟩
    · rw [(a3 _).1]
    · intro X Y h0 hX hY
      rw [(a3 _).2.1]
      obtain ⟨B, hB, hB'⟩ := b1' h0 ds[n]
      simp only [hB']
      obtain ⟨X', Y', hX', hY', hXY, -⟩ := C130_baseline cams (n - 1) (by omega)
      rw [show n - 1 + 1 = n by omega] at hY' hXY
      rw [hX, Except.ok.injEq] at hX'
      rw [hY, Except.ok.injEq] at hY'
      rw [hB, Except.ok.injEq] at hXY
      rw [hXY, hX', hY']
    · intro h0
      rw [(a3 _).2.1]
      exact b1 h0 _
    · intro cam hcam
      rw [List.getElem?_eq_getElem hn, Option.some.injEq] at hcam
      rw [b3, hcam]
      simp only [(a1 _).2.1]
    · obtain ⟨-, -, p3, p4, p5, p6, p7, p8⟩ := a3 { f1 ds[n] with T_cam_imu := some T }
      obtain ⟨-, -, q3, q4, q5, q6, q7, q8⟩ := a1 ds[n]
      exact ⟨p3.trans q3, p4.trans q4, p5.trans q5, p6.trans q6, p7.trans q7, p8.trans q8⟩

/-- **C130** The chain is written whenever it has the cameras that were calibrated, in order; every camera has the transformation
from the unit, the one from the camera before and, if times are calibrated, the time shift; and the parameters it had. -/
theorem C130_saved (cams : List (SensorCam M)) (noTime : Bool) {c : Chain M} {ds : List (CamDict M)} (h : Holds c ds)
    (hl : ds.length = cams.length) : ∃ c' ds', saveCamChain cams noTime c = .ok c' ∧ Holds c' ds' ∧ ds'.length = ds.length ∧
      ∀ i d d', ds[i]? = some d → ds'[i]? = some d' → Written cams noTime i d d' := by
  have key : ∀ m, m ≤ cams.length → ∃ c' ds', (List.range m).foldlM (saveOne cams noTime) c = .ok c' ∧ Holds c' ds' ∧
      ds'.length = ds.length ∧ (∀ i, m ≤ i → ds'[i]? = ds[i]?) ∧
      ∀ i d d', i < m → ds[i]? = some d → ds'[i]? = some d' → Written cams noTime i d d' := by
    intro m
    induction m with
    | zero => exact fun _ => ⟨c, ds, rfl, h, rfl, fun _ _ => rfl, fun i _ _ hi => absurd hi (by omega)⟩
    | succ m ih =>
      intro hm
      obtain ⟨c1, ds1, h1, hh1, hl1, hge, hlt⟩ := ih (by omega)
      obtain ⟨c2, ds2, h2, hh2, hl2, hne, hw⟩ := saveOne_spec cams noTime hh1 (by omega) (n := m) (by omega)
      refine ⟨c2, ds2, ?_, hh2, by omega, fun i hi => by rw [hne i (by omega), hge i (by omega)], ?_⟩
      · rw [List.range_succ, List.foldlM_append, h1]
        show (List.foldlM (saveOne cams noTime) c1 [m]) = _
        simp [h2]
      · intro i d d' hi hd hd'
        rcases Nat.lt_succ_iff_lt_or_eq.1 hi with hi' | hi'
        · rw [hne i (by omega)] at hd'
          exact hlt i d d' hi' hd hd'
        · subst hi'
          exact hw d d' (by rw [hge i (le_refl _)]; exact hd) hd'
  obtain ⟨c', ds', h1, h2, h3, -, h5⟩ := key cams.length (le_refl _)
  refine ⟨c', ds', h1, h2, h3, fun i d d' hd hd' => h5 i d d' ?_ hd hd'⟩
  rw [← hl]
  exact (List.getElem?_eq_some_iff.1 hd).1

example : ∃ (c : Chain (Multiplicative ℤ)) (ds : List (CamDict (Multiplicative ℤ))) (cams : List (SensorCam (Multiplicative ℤ))),
    Holds c ds ∧ ds.length = cams.length ∧ 1 < cams.length :=
  ⟨addCameraAtEnd (addCameraAtEnd [] {}) {}, [{}, {}], [⟨.ofAdd 1, 0, 0⟩, ⟨.ofAdd 2, 0, 0⟩], (holds_nil.add {}).add {}, rfl, by decide⟩

/-- **C130** If times are not calibrated, the chain keeps a time shift of the file that was read, although the calibration used
none: the transformations that are written are those for a shift of zero, and the shift beside them is another. -/
theorem C130_stale_counterexample : ∃ (c c' : Chain (Multiplicative ℤ)) (cams : List (SensorCam (Multiplicative ℤ))) (d : CamDict (Multiplicative ℤ)),
    saveCamChain cams true c = .ok c' ∧ getCameraParameters c' 0 = .ok d ∧ cams.map resultTimeShift = [0] ∧
    d.timeshift = some (.flt (1 / 50)) :=
  ⟨addCameraAtEnd [] { timeshift := some (.flt (1 / 50)) },
    addCameraAtEnd [] { timeshift := some (.flt (1 / 50)), T_cam_imu := some (.ofAdd 3) }, [⟨.ofAdd 3, 0, 0⟩],
    { timeshift := some (.flt (1 / 50)), T_cam_imu := some (.ofAdd 3) }, by decide +kernel, by decide +kernel, by decide +kernel, by decide +kernel⟩

/-! ## The pose of a unit -/

open Kin in
/-- `updateImuConfig` (`IS.py` 578-581), `setImuPose` (558-559): the matrix that is written as `T_i_b`. `C` is the value of
`q_i_b_Dv`, `r` that of `r_b_Dv`. -/
noncomputable def writtenPose (C : M3) (r : V3) : M4 := (Trafo.mk' (r2quat C) r).T

open Kin in
/-- `getTransformationFromBodyToImu` (`IS.py` 775-780) for a unit that is not the reference. -/
noncomputable def bodyToImu (C : M3) (r : V3) : M4 := (Trafo.mk' (r2quat C) (C.mulVec r)).T

open Kin in
/-- Specification: the unit is at the point `r` of the body, and `C` turns vectors of the body into the frame of the unit: in
the accelerometer terms `r` is the lever arm of the unit in the body (`IS.py` 705-709, see C105). So a point of the body
has these coordinates in the frame of the unit. -/
noncomputable def imuCoordinates (C : M3) (r p : V3) : V3 := C.mulVec (p - r)

open Kin in
/-- Specification: the matrix of homogeneous coordinates that takes points of the body to the frame of the unit. -/
def BodyToImu (T : M4) (C : M3) (r : V3) : Prop :=
  ∀ p, T.mulVec ![p 0, p 1, p 2, 1] = ![imuCoordinates C r p 0, imuCoordinates C r p 1, imuCoordinates C r p 2, 1]

open Kin in
theorem pose_iff {C : M3} (hC : C ∈ SO3) (r t : V3) : BodyToImu (Trafo.mk' (r2quat C) t).T C r ↔ t = -(C.mulVec r) := by
  obtain ⟨h1, h2, -⟩ := C49_round_trip C hC
  have h3 : (Trafo.mk' (r2quat C) t).T = rt2Transform C t := by
    unfold Trafo.mk' Trafo.T
    simp only [normalize_unit h2, h1]
  rw [h3]
  have h4 : ∀ p : V3, (rt2Transform C t).mulVec ![p 0, p 1, p 2, 1] = ![C.mulVec p 0 + t 0, C.mulVec p 1 + t 1, C.mulVec p 2 + t 2, 1] := by
    intro p
    funext i
    fin_cases i <;> simp [rt2Transform, Matrix.mulVec, dotProduct, Fin.sum_univ_four, Fin.sum_univ_three]
  unfold BodyToImu imuCoordinates
  constructor
  · intro h
    have h5 := h 0
    rw [h4] at h5
    have e0 := congrFun h5 0
    have e1 := congrFun h5 1
    have e2 := congrFun h5 2
    simp [Matrix.mulVec_neg] at e0 e1 e2
    funext i
    fin_cases i
    · simpa using e0
    · simpa using e1
    · simpa using e2
  · intro h p
    rw [h4, h, Matrix.mulVec_sub]
    simp [sub_eq_add_neg]

open Kin in
/-- **C130, in part** The pose that is written for a unit is its pose if and only if the lever arm is turned into its opposite by
the rotation of the unit; so for the reference, which is at the origin, it is right. -/
theorem C130_pose_partial {C : M3} (hC : C ∈ SO3) (r : V3) :
    (BodyToImu (writtenPose C r) C r ↔ C.mulVec r = -r) ∧ (r = 0 → BodyToImu (writtenPose C r) C r) := by
  have h : BodyToImu (writtenPose C r) C r ↔ C.mulVec r = -r := by
    unfold writtenPose
    rw [pose_iff hC]
    constructor
    · intro h; rw [h, neg_neg, ← h]
    · intro h; rw [h, neg_neg]
  exact ⟨h, fun h0 => h.2 (by rw [h0]; simp)⟩

open Kin in
/-- **C130** For a second unit that is not at the origin of the first the written transformation is wrong, and so is that of
`getTransformationFromBodyToImu`, which is a different one: neither of them has the sign of the lever arm. Here the unit is not
turned, and one meter away. -/
theorem C130_pose_counterexample : ∃ (C : M3) (r : V3), C ∈ SO3 ∧ ¬ BodyToImu (writtenPose C r) C r ∧ ¬ BodyToImu (bodyToImu C r) C r := by
  refine ⟨1, ![1, 0, 0], Submonoid.one_mem _, ?_, ?_⟩
  · unfold writtenPose
    rw [pose_iff (Submonoid.one_mem _), Matrix.one_mulVec]
    intro h
    have := congrFun h 0
    simp at this
    norm_num at this
  · unfold bodyToImu
    rw [pose_iff (Submonoid.one_mem _), Matrix.one_mulVec]
    intro h
    have := congrFun h 0
    simp at this
    norm_num at this

end Kalibr.Icc
