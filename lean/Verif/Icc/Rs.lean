import Verif.Common
import Verif.Tactics

/-!
# Rolling shutter calibration (C131)

`aslam_offline_calibration/kalibr/python/kalibr_rs_camera_calibration/RsCalibrator.py` (cited as `RS.py`) and
`aslam_offline_calibration/kalibr/python/kalibr_calibrate_rs_cameras` (cited as `RB.py`). The spline and the optimisation are
modelled elsewhere (C91-C103, C129); here are the pairs of image point and corner that the error terms are made of, the guesses
that are made before, and the configuration.
-/

namespace Kalibr.Icc.Rs

/-- The exceptions that end a calibration: `IndexError` and `AttributeError`. -/
inductive Fail
  | index
  | attribute
deriving DecidableEq

/-- A result or an exception. -/
abbrev Py (α : Type) := Except Fail α


/-- The observation of the target in one image: the corners that were seen, in the order of the target, with their image points. A
corner is its number; its position is a function of it. `getCornersImageFrame` and `getCornersTargetFrame` go through the same
corners in the same order (C85-C88). -/
structure Obs where
  corners : List (Nat × (ℚ × ℚ))
  /-- `hasSuccessfulObservation` -/
  success : Bool
deriving DecidableEq

/-- One error term: the image point, and the corner of which it is said to be the image. -/
abbrev Term := (ℚ × ℚ) × Nat

/-- The loop over the corners of one observation (`RS.py` 325-338): `landmarks_expr[index]`. -/
def obsTerms (landmarks : List Nat) (index : Nat) : List (Nat × (ℚ × ℚ)) → Py (List Term)
  | [] => .ok []
  | (_, point) :: l =>
    match landmarks[index]? with
    | none => .error .index
    | some k => match obsTerms landmarks (index + 1) l with
      | .error e => .error e
      | .ok ts => .ok ((point, k) :: ts)

/-- The loop over the observations (`RS.py` 314-357). -/
def allTerms (landmarks : List Nat) : List Obs → Py (List (List Term))
  | [] => .ok []
  | o :: os =>
    if o.success then
      match obsTerms landmarks 0 o.corners with
      | .error e => .error e
      | .ok ts => match allTerms landmarks os with
        | .error e => .error e
        | .ok tss => .ok (ts :: tss)
    else allTerms landmarks os

/-- `__buildOptimizationProblem` (`RS.py` 262-360): the landmarks are the corners that the first observation has seen
(`RS.py` 279-289). -/
def buildTerms : List Obs → Py (List (List Term))
  | [] => .error .index
  | o :: os => allTerms (o.corners.map Prod.fst) (o :: os)

/-- Specification: an error term for every corner that was seen in an observation that succeeded, with this corner. -/
def rightTerms (os : List Obs) : List (List Term) := (os.filter Obs.success).map fun o => o.corners.map fun c => (c.2, c.1)

theorem obsTerms_iff (landmarks : List Nat) (l : List (Nat × (ℚ × ℚ))) : ∀ index,
    obsTerms landmarks index l = .ok (l.map fun c => (c.2, c.1)) ↔ l.map Prod.fst <+: landmarks.drop index := by
  induction l with
  | nil => intro index; simp [obsTerms]
  | cons c l ih =>
    intro index
    obtain ⟨k, p⟩ := c
    unfold obsTerms
    cases hg : landmarks[index]? with
    | none =>
      have : landmarks.drop index = [] := by rw [List.drop_eq_nil_iff]; exact List.getElem?_eq_none_iff.1 hg
      simp [this]
    | some k' =>
      obtain ⟨hlt, hk⟩ := List.getElem?_eq_some_iff.1 hg
      have hd : landmarks.drop index = k' :: landmarks.drop (index + 1) := by rw [List.drop_eq_getElem_cons hlt, hk]
      rw [hd, List.map_cons (f := Prod.fst), List.cons_prefix_cons, ← ih (index + 1)]
      cases hts : obsTerms landmarks (index + 1) l with
      | error e => simp
      | ok ts => simp [and_comm, eq_comm]

theorem allTerms_iff (landmarks : List Nat) (os : List Obs) :
    allTerms landmarks os = .ok (rightTerms os) ↔ ∀ o ∈ os, o.success = true → o.corners.map Prod.fst <+: landmarks := by
  induction os with
  | nil => simp [allTerms, rightTerms]
  | cons o os ih =>
    unfold allTerms
    by_cases hs : o.success = true
    · have h0 := obsTerms_iff landmarks o.corners 0
      rw [List.drop_zero] at h0
      rw [if_pos hs, List.forall_mem_cons, ← ih, ← h0]
      simp only [rightTerms, List.filter_cons, hs, if_true, List.map_cons]
      cases h1 : obsTerms landmarks 0 o.corners with
      | error e => simp
      | ok ts => cases h2 : allTerms landmarks os with
        | error e => simp
        | ok tss => simp
    · rw [if_neg hs, List.forall_mem_cons]
      simp only [rightTerms, List.filter_cons, hs] at ih ⊢
      simp only [Bool.false_eq_true, if_false, false_implies, true_and]
      exact ih

/-- **C131** The error terms are those of the corners that were seen if and only if the corners of every observation that
succeeded are the first ones of those of the first observation. -/
theorem C131_terms_iff (o : Obs) (os : List Obs) : buildTerms (o :: os) = .ok (rightTerms (o :: os)) ↔
    ∀ o' ∈ os, o'.success = true → o'.corners.map Prod.fst <+: o.corners.map Prod.fst := by
  unfold buildTerms
  rw [allTerms_iff, List.forall_mem_cons]
  exact ⟨fun h => h.2, fun h => ⟨fun _ => List.prefix_refl _, h⟩⟩

/-- **C131, in part** If every observation sees the same corners, as with a target that is only found as a whole, every image point
is paired with the corner it is the image of. -/
theorem C131_whole_partial (os : List Obs) (ids : List Nat) (h : ∀ o ∈ os, o.corners.map Prod.fst = ids) (hne : os ≠ []) :
    buildTerms os = .ok (rightTerms os) := by
  cases os with
  | nil => exact absurd rfl hne
  | cons o os =>
    rw [C131_terms_iff]
    intro o' ho' _
    rw [h o (by simp), h o' (by simp [ho'])]

example : ∃ (os : List Obs) (ids : List Nat), (∀ o ∈ os, o.corners.map Prod.fst = ids) ∧ os.length = 2 ∧ ids = [0, 1] :=
  ⟨[⟨[(0, 1, 1), (1, 5, 1)], true⟩, ⟨[(0, 2, 1), (1, 6, 1)], true⟩], [0, 1], by simp, rfl, rfl⟩

/-- **C131** With a target of which parts are found, as the one of the example of the program, image points are paired with other
corners, without any message. -/
theorem C131_pair_counterexample : ∃ (os : List Obs) (tss : List (List Term)), (∀ o ∈ os, o.success = true) ∧
    buildTerms os = .ok tss ∧ tss ≠ rightTerms os :=
  ⟨[⟨[(0, 1, 1), (1, 5, 1)], true⟩, ⟨[(1, 6, 1), (2, 9, 1)], true⟩], [[((1, 1), 0), ((5, 1), 1)], [((6, 1), 0), ((9, 1), 1)]],
    by decide +kernel, by decide +kernel, by decide +kernel⟩

/-- **C131** Or the calibration ends in an exception, which happens whenever an image shows more corners than the first. -/
theorem C131_more_counterexample (o : Obs) (os : List Obs) (o' : Obs) (h : o' ∈ os) (hs : o'.success = true)
    (hlt : o.corners.length < o'.corners.length) (hs' : ∀ o'' ∈ o :: os, o''.success = true) : buildTerms (o :: os) = .error .index := by
  have hobs : ∀ (landmarks : List Nat) (l : List (Nat × (ℚ × ℚ))) (index : Nat),
      (index + l.length ≤ landmarks.length → ∃ ts, obsTerms landmarks index l = .ok ts) ∧
      (landmarks.length < index + l.length → l ≠ [] → obsTerms landmarks index l = .error .index) := by
    intro landmarks l
    induction l with
    | nil => intro index; exact ⟨fun _ => ⟨[], rfl⟩, fun _ hc => absurd rfl hc⟩
    | cons c l ih =>
      intro index
      obtain ⟨k, p⟩ := c
      unfold obsTerms
      constructor
      · intro hle
        have hle' : index + (l.length + 1) ≤ landmarks.length := hle
        rw [List.getElem?_eq_getElem (by omega)]
        obtain ⟨ts, hts⟩ := (ih (index + 1)).1 (by omega)
        rw [hts]
        exact ⟨_, rfl⟩
      · intro hgt _
        have hgt' : landmarks.length < index + (l.length + 1) := hgt
        cases hg : landmarks[index]? with
        | none => rfl
        | some k' =>
          obtain ⟨hi, -⟩ := List.getElem?_eq_some_iff.1 hg
          have hl : l ≠ [] := by
            intro hc; subst hc; simp at hgt'; omega
          simp only [(ih (index + 1)).2 (by omega) hl]
  have hall : ∀ (landmarks : List Nat) (l : List Obs), (∀ x ∈ l, x.success = true) →
      (∃ x ∈ l, landmarks.length < x.corners.length) → allTerms landmarks l = .error .index := by
    intro landmarks l
    induction l with
    | nil => intro _ hx; obtain ⟨x, hx, -⟩ := hx; exact absurd hx (by simp)
    | cons x l ih =>
      intro hsl hx
      unfold allTerms
      rw [if_pos (hsl x (by simp))]
      by_cases hc : landmarks.length < x.corners.length
      · rw [(hobs landmarks x.corners 0).2 (by omega) (by intro hc'; rw [hc'] at hc; simp at hc)]
      · obtain ⟨ts, hts⟩ := (hobs landmarks x.corners 0).1 (by omega)
        rw [hts]
        obtain ⟨y, hy, hyl⟩ := hx
        rcases List.mem_cons.1 hy with rfl | hy
        · exact absurd hyl hc
        · simp only [ih (fun z hz => hsl z (by simp [hz])) ⟨y, hy, hyl⟩]
  exact hall _ _ hs' ⟨o', by simp [h], by simpa using hlt⟩

example : ∃ (o : Obs) (os : List Obs) (o' : Obs), o' ∈ os ∧ o'.success = true ∧ o.corners.length < o'.corners.length ∧
    ∀ o'' ∈ o :: os, o''.success = true :=
  ⟨⟨[(0, 1, 1)], true⟩, [⟨[(0, 1, 1), (1, 2, 1)], true⟩], ⟨[(0, 1, 1), (1, 2, 1)], true⟩, by decide +kernel, by decide +kernel, by decide +kernel, by decide +kernel⟩

/-! ## The guesses -/

/-- `__generateExtrinsicsInitialGuess` (`RS.py` 197-207): `estimate` is `estimateTransformation`. For a failure the
message is `"…" . idx`, an attribute that strings do not have. -/
def extrinsicsGuess {P : Type} (estimate : Obs → Option P) : List Obs → Py (List P)
  | [] => .ok []
  | o :: os => match estimate o with
    | none => .error .attribute
    | some T => match extrinsicsGuess estimate os with
      | .error e => .error e
      | .ok Ts => .ok (T :: Ts)

/-- **C131** One observation without a pose ends the calibration; a warning was meant. Otherwise every observation has the pose
that was estimated for it. -/
theorem C131_guess {P : Type} (estimate : Obs → Option P) (os : List Obs) :
    ((∃ Ts, extrinsicsGuess estimate os = .ok Ts) ↔ ∀ o ∈ os, estimate o ≠ none) ∧
    (∀ Ts, extrinsicsGuess estimate os = .ok Ts → Ts.map some = os.map estimate) ∧
    ((∃ o ∈ os, estimate o = none) → extrinsicsGuess estimate os = .error .attribute) := by
  induction os with
  | nil => simp [extrinsicsGuess]
  | cons o os ih =>
    unfold extrinsicsGuess
    obtain ⟨h1, h2, h3⟩ := ih
    cases he : estimate o with
    | none => simp [he]
    | some T =>
      cases hr : extrinsicsGuess estimate os with
      | error e =>
        refine ⟨?_, ?_, ?_⟩
        · rw [hr] at h1; simpa [he] using h1
        · intro Ts h; cases h
        · rintro ⟨o', ho', hn⟩
          rcases List.mem_cons.1 ho' with rfl | ho'
          · rw [he] at hn; cases hn
          · rw [hr] at h3; exact h3 ⟨o', ho', hn⟩
      | ok Ts =>
        refine ⟨?_, ?_, ?_⟩
        · rw [hr] at h1; simpa [he] using h1
        · intro Ts' h
          rw [Except.ok.injEq] at h
          subst h
          simp [he, h2 Ts hr]
        · rintro ⟨o', ho', hn⟩
          rcases List.mem_cons.1 ho' with rfl | ho'
          · rw [he] at hn; cases hn
          · exact absurd hn (h1.1 ⟨Ts, hr⟩ o' ho')

/-- The first guess for the delay of a line (`RS.py` 215-216): `1.0 / framerate / float(sensorRows)`. -/
def initialLineDelay (framerate rows : ℚ) : ℚ := 1 / framerate / rows

/-- **C131** With it the rows of an image take the time from one image to the next, so every row that there is is read
before the next image begins. -/
theorem C131_delay (framerate rows : ℚ) (hf : 0 < framerate) (hr : 0 < rows) :
    rows * initialLineDelay framerate rows = 1 / framerate ∧ ∀ v, v < rows → v * initialLineDelay framerate rows < 1 / framerate := by
  have h : 0 < initialLineDelay framerate rows := by unfold initialLineDelay; positivity
  have h1 : rows * initialLineDelay framerate rows = 1 / framerate := by unfold initialLineDelay; field_simp
  exact ⟨h1, fun v hv => by rw [← h1]; exact mul_lt_mul_of_pos_right hv h⟩

example : (0 : ℚ) < 30 ∧ (0 : ℚ) < 480 := by decide +kernel

/-- The weight of an error term of an image point: `config.inverseFeatureCovariance = 1.0/parsed.inverseFeatureVariance`
(`RB.py` 154), which the keypoints get as inverse covariance (`RS.py` 343-344). -/
def weightOf (inverseFeatureVariance : ℚ) : ℚ := 1 / inverseFeatureVariance

/-- **C131** The option is called the inverse of the variance; the weight of an image point is the inverse of that: for a
variance `v` the terms are weighted by `v` and not by its inverse, which is the same for `v = 1` only. -/
theorem C131_variance_counterexample (v : ℚ) (hv : 0 < v) : weightOf (1 / v) = v ∧ (weightOf (1 / v) = 1 / v ↔ v = 1) := by
  have h : weightOf (1 / v) = v := by unfold weightOf; field_simp
  refine ⟨h, ?_⟩
  rw [h]
  constructor
  · intro h'
    rw [eq_div_iff hv.ne'] at h'
    nlinarith
  · rintro rfl; norm_num

example : (0 : ℚ) < 26 / 100 := by decide +kernel

/-! ## The configuration -/

/-- What is left of earlier calibrations in one process: the entry `shutter` of the dictionary `estimateParameters`, which belongs to
the class (`RS.py` 53). `RsCalibratorConfiguration.validate` (`RS.py` 75-80) changes the dictionary; the assignment to
`adaptiveKnotPlacement` is one to the object. The result is whether the shutter is estimated and whether knots are placed. -/
def validate (shutter : Bool) (isRollingShutter : Bool) : Bool × (Bool × Bool) :=
  if isRollingShutter then (shutter, (shutter, true)) else (false, (false, false))

/-- Calibrations one after the other, each with a configuration of its own. -/
def calibrations (shutter : Bool) : List Bool → List (Bool × Bool)
  | [] => []
  | rs :: l => (validate shutter rs).2 :: calibrations (validate shutter rs).1 l

theorem calibrations_false (l : List Bool) : calibrations false l = l.map fun rs => (false, rs) := by
  induction l with
  | nil => rfl
  | cons rs l ih => cases rs <;> simp [calibrations, validate, ih]

/-- **C131** Knots are placed exactly for rolling shutters; the shutter is estimated for a rolling shutter, but only if none of the
calibrations before was of a global shutter. -/
theorem C131_config_partial (l : List Bool) (n : Nat) (h : n < l.length) :
    (calibrations true l)[n]? = some ((l.take (n + 1)).all id, l[n]) := by
  induction l generalizing n with
  | nil => simp at h
  | cons rs l ih =>
    cases rs with
    | true =>
      cases n with
      | zero => simp [calibrations, validate]
      | succ n => simpa [calibrations, validate] using ih n (by simpa using h)
    | false =>
      cases n with
      | zero => simp [calibrations, validate]
      | succ n =>
        have hn : n < l.length := by simpa using h
        simp [calibrations, validate, calibrations_false, hn]

/-- **C131** So it is not estimated for a rolling shutter after a global one. -/
theorem C131_config_counterexample : (calibrations true [false, true])[1]? = some (false, true) := rfl

end Kalibr.Icc.Rs
