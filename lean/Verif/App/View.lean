import Verif.App.Chain

/-!
# The error terms of a view of the target (C124)

`aslam_offline_calibration/kalibr/python/kalibr_camera_calibration/CameraCalibrator.py` (cited as `CC.py`) 143-244, 299-353 and
380-413. A transformation is an element of a group `M`, an image point a value of `P`, and an error term is what it is made of.
Not modelled: the design variables, the m-estimators, the angles of the statistics, and the check of the image centre.
-/

namespace Kalibr.App

variable {M P : Type} [Group M]

/-- `GridCalibrationTargetObservation`: `imagePoint(i)`, where it is valid. -/
abbrev GridObs (P : Type) := Nat → Option P

/-- CC.py 207-208: `reprojectionError(y, invR, T_camN_calib * p_target, camera.dv)` with `rerr.idx`. -/
structure Term (M P : Type) where
  cam : Nat
  idx : Nat
  y : P
  T : M

/-- CC.py 143-220: a view. `rerrs` are the error terms of each camera, one place for each point of the target. -/
structure View (M P : Type) where
  rig : List (Nat × GridObs P)
  rerrs : List (Nat × List (Option (Term M P)))
  terms : List (Term M P)

/-- CC.py 190-193: the chain from the target over camera 0 to the camera. A baseline that is not there is an exception. -/
def chainTo (baselines : List M) (Ttc : M) (cam : Nat) : Out M :=
  (List.range cam).foldlM (fun T idx =>
    match baselines[idx]? with
    | none => Out.raise
    | some b => .ok (b * T)) Ttc⁻¹

/-- CC.py 201-217: the terms of the points of the target for one camera. -/
def camTerms (size cam : Nat) (obs : GridObs P) (T : M) : List (Option (Term M P)) :=
  (List.range size).map fun i => (obs i).map fun y => ⟨cam, i, y, T⟩

/-- CC.py 184-217: one camera of the view. -/
def addRig (numCams size : Nat) (baselines : List M) (Ttc : M) (v : View M P) (x : Nat × GridObs P) : Out (View M P) :=
  if x.1 < numCams then
    match chainTo baselines Ttc x.1 with
    | .ok T => .ok { v with
        rerrs := v.rerrs ++ [(x.1, camTerms size x.1 x.2 T)]
        terms := v.terms ++ (camTerms size x.1 x.2 T).filterMap id }
    | .raise => .raise
    | .ub => .ub
  else .raise

/-- CC.py 145-220, `fromTargetViewObservations`. -/
def fromTargetView (numCams size : Nat) (baselines : List M) (Ttc : M) (rig : List (Nat × GridObs P)) : Out (View M P) :=
  rig.foldlM (addRig numCams size baselines Ttc) ⟨rig, [], []⟩

/-- `getCornersIdx()` on a target of `size` points. -/
def cornersIdx (size : Nat) (obs : GridObs P) : List Nat := (List.range size).filter fun i => (obs i).isSome

/-- CC.py 299-330, `getPointStatistics`: the error term that the statistics of a point are made of. `ok none`: not valid. -/
def pointStatistics (size : Nat) (v : View M P) (cam pidx : Nat) : Out (Option (Term M P)) :=
  match v.rig.find? fun x => x.1 == cam with
  | none => .ok none
  | some x =>
    match x.2 pidx with
    | none => .ok none
    | some _ =>
      let eidx := (cornersIdx size x.2).idxOf pidx
      match v.terms[eidx]? with
      | none => .raise
      | some t => .ok (some t)

/-- CC.py 381-413, `getReprojectionErrors`: for every view the terms of the camera, or `None`. -/
def reprojectionErrors (views : List (View M P)) (cam : Nat) : List (Option (List (Option (Term M P)))) :=
  views.map fun v => (v.rerrs.find? fun x => x.1 == cam).map Prod.snd

/-- CC.py 222-244, `removeCornersFromBatch`: the points are removed from the observations. -/
def removeCorners (rig : List (Nat × GridObs P)) (removal : List (Nat × List Nat)) : List (Nat × GridObs P) :=
  rig.map fun x => (x.1, fun i => if removal.any (fun r => r.1 == x.1 && r.2.contains i) then none else x.2 i)

/-! ## Specification -/

/-- The term that belongs to point `i` of camera `cam`: it has the image point that was seen, and the pose of the target in the
frame of the camera. `X` are the poses of the cameras, `Ttc` is the pose of camera 0 in the frame of the target. -/
def IsTermOf (X : Nat → M) (Ttc : M) (rig : List (Nat × GridObs P)) (t : Term M P) : Prop :=
  ∃ obs, (t.cam, obs) ∈ rig ∧ obs t.idx = some t.y ∧ t.T = X t.cam * (X 0)⁻¹ * Ttc⁻¹

/-! ## Proofs -/

theorem chainTo_spec (X : Nat → M) (n : Nat) (Ttc : M) {c : Nat} (hc : c ≤ n) :
    chainTo ((List.range n).map fun b => X (b + 1) * (X b)⁻¹) Ttc c = .ok (X c * (X 0)⁻¹ * Ttc⁻¹) := by
  unfold chainTo
  induction c with
  | zero => simp
  | succ c ih =>
    rw [List.range_succ, List.foldlM_append, ih (by omega), Out.ok_bind, List.foldlM_cons, List.getElem?_map,
      List.getElem?_range (by omega)]
    simp [mul_assoc]

/-- The view that is built. -/
theorem fromTargetView_spec (X : Nat → M) {numCams size : Nat} {Ttc : M} {rig : List (Nat × GridObs P)}
    (hrig : ∀ x ∈ rig, x.1 < numCams) :
    fromTargetView numCams size ((List.range (numCams - 1)).map fun b => X (b + 1) * (X b)⁻¹) Ttc rig =
      .ok ⟨rig, rig.map fun x => (x.1, camTerms size x.1 x.2 (X x.1 * (X 0)⁻¹ * Ttc⁻¹)),
        (rig.map fun x => (camTerms size x.1 x.2 (X x.1 * (X 0)⁻¹ * Ttc⁻¹)).filterMap id).flatten⟩ := by
  have key : ∀ (l : List (Nat × GridObs P)) (v : View M P), (∀ x ∈ l, x.1 < numCams) →
      l.foldlM (addRig numCams size ((List.range (numCams - 1)).map fun b => X (b + 1) * (X b)⁻¹) Ttc) v =
      .ok ⟨v.rig, v.rerrs ++ l.map fun x => (x.1, camTerms size x.1 x.2 (X x.1 * (X 0)⁻¹ * Ttc⁻¹)),
        v.terms ++ (l.map fun x => (camTerms size x.1 x.2 (X x.1 * (X 0)⁻¹ * Ttc⁻¹)).filterMap id).flatten⟩ := by
    intro l
    induction l with
    | nil => intro v _; simp
    | cons x l ih =>
      intro v hl
      have hx := hl x (by simp)
      rw [List.foldlM_cons, addRig, if_pos hx, chainTo_spec X _ _ (by omega)]
      simp only [Out.ok_bind]
      rw [ih _ fun y hy => hl y (by simp [hy])]
      simp
  have := key rig ⟨rig, [], []⟩ hrig
  simpa [fromTargetView] using this

omit [Group M] in
theorem mem_camTerms {size cam : Nat} {obs : GridObs P} {T : M} {t : Term M P} :
    t ∈ (camTerms size cam obs T).filterMap id ↔ t.cam = cam ∧ t.idx < size ∧ obs t.idx = some t.y ∧ t.T = T := by
  rw [List.mem_filterMap]
  simp only [camTerms, List.mem_map, List.mem_range, id]
  constructor
  · rintro ⟨a, ⟨i, hi, rfl⟩, h⟩
    rw [Option.map_eq_some_iff] at h
    obtain ⟨y, hy, rfl⟩ := h
    exact ⟨rfl, hi, hy, rfl⟩
  · rintro ⟨h1, h2, h3, h4⟩
    obtain ⟨tc, ti, ty, tT⟩ := t
    simp only [] at h1 h2 h3 h4
    subst h1 h4
    exact ⟨some ⟨tc, ti, ty, tT⟩, ⟨ti, h2, by rw [h3]; rfl⟩, rfl⟩

omit [Group M] in
theorem camTerms_nodup {size cam : Nat} {obs : GridObs P} {T : M} :
    ((camTerms size cam obs T).filterMap id).Pairwise fun s t => s.idx < t.idx := by
  rw [List.pairwise_filterMap, camTerms, List.pairwise_map]
  refine List.pairwise_lt_range.imp ?_
  intro i j hij s hs t ht
  simp only [id, Option.map_eq_some_iff] at hs ht
  obtain ⟨_, _, rfl⟩ := hs
  obtain ⟨_, _, rfl⟩ := ht
  exact hij

/-- **C125, removed corners.** Exactly the corners listed for a camera are removed from the observation of that camera; the
others and the cameras stay as they are. -/
theorem C125_removed (rig : List (Nat × GridObs P)) (removal : List (Nat × List Nat)) :
    (removeCorners rig removal).map Prod.fst = rig.map Prod.fst ∧
    ∀ (k cam : Nat) (obs : GridObs P), rig[k]? = some (cam, obs) → ∃ obs' : GridObs P, (removeCorners rig removal)[k]? = some (cam, obs') ∧
      (∀ ids, (cam, ids) ∈ removal → ∀ i ∈ ids, obs' i = none) ∧
      ∀ i, (∀ ids, (cam, ids) ∈ removal → i ∉ ids) → obs' i = obs i := by
  refine ⟨by simp [removeCorners, Function.comp_def], fun k cam obs h => ?_⟩
  refine ⟨_, by rw [removeCorners, List.getElem?_map, h]; rfl, fun ids h1 i h2 => ?_, fun i h1 => ?_⟩
  · refine if_pos (List.any_eq_true.2 ⟨_, h1, ?_⟩)
    simp [h2]
  · refine if_neg fun h2 => ?_
    obtain ⟨r, hr, h3⟩ := List.any_eq_true.1 h2
    simp only [Bool.and_eq_true, beq_iff_eq, List.contains_iff_mem] at h3
    exact h1 r.2 (by rw [← h3.1]; exact hr) h3.2

/-- **C124** In the problem of a view there is one error term for each point that a camera sees, with the image point that was
seen and with the pose of the target in the frame of this camera, and there is no other; and the table by cameras has this term
at the place of the point, and nothing at the places of the points that are not seen. -/
theorem C124_terms (X : Nat → M) {numCams size : Nat} {Ttc : M} {rig : List (Nat × GridObs P)}
    (hrig : ∀ x ∈ rig, x.1 < numCams) (hcams : (rig.map Prod.fst).Nodup) :
    ∃ v, fromTargetView numCams size ((List.range (numCams - 1)).map fun b => X (b + 1) * (X b)⁻¹) Ttc rig = .ok v ∧
      (∀ t, t ∈ v.terms ↔ t.idx < size ∧ IsTermOf X Ttc rig t) ∧
      (v.terms.Pairwise fun s t => ¬ (s.cam = t.cam ∧ s.idx = t.idx)) ∧
      v.rerrs.map Prod.fst = rig.map Prod.fst ∧
      ∀ x ∈ v.rerrs, x.2.length = size ∧ ∀ i (hi : i < x.2.length), ∀ t, x.2[i] = some t ↔
        t.cam = x.1 ∧ t.idx = i ∧ IsTermOf X Ttc rig t := by
  refine ⟨_, fromTargetView_spec X hrig, ?_, ?_, ?_, ?_⟩
  · intro t
    simp only [List.mem_flatten, List.mem_map]
    constructor
    · rintro ⟨_, ⟨x, hx, rfl⟩, ht⟩
      rw [mem_camTerms] at ht
      obtain ⟨h1, h2, h3, h4⟩ := ht
      exact ⟨h2, x.2, by rw [h1]; exact hx, h3, by rw [h4, h1]⟩
    · rintro ⟨h2, obs, hx, h3, h4⟩
      exact ⟨_, ⟨_, hx, rfl⟩, mem_camTerms.2 ⟨rfl, h2, h3, h4⟩⟩
  · simp only []
    rw [List.pairwise_flatten]
    refine ⟨?_, ?_⟩
    · intro l hl
      obtain ⟨x, -, rfl⟩ := List.mem_map.1 hl
      exact camTerms_nodup.imp fun h hc => by omega
    · rw [List.pairwise_map]
      rw [List.Nodup, List.pairwise_map] at hcams
      refine hcams.imp ?_
      intro x y hxy s hs t ht hc
      rw [mem_camTerms] at hs ht
      exact hxy (hs.1.symm.trans (hc.1.trans ht.1))
  · simp only [List.map_map]
    rfl
  · intro x hx
    obtain ⟨y, hy, rfl⟩ := List.mem_map.1 hx
    refine ⟨by simp [camTerms], ?_⟩
    intro i hi t
    simp only [camTerms, List.getElem_map, List.getElem_range, Option.map_eq_some_iff]
    constructor
    · rintro ⟨z, hz, rfl⟩
      exact ⟨rfl, rfl, y.2, hy, hz, rfl⟩
    · rintro ⟨h1, h2, obs, hobs, h3, h4⟩
      have : obs = y.2 := by
        by_contra hne
        have hinj := List.inj_on_of_nodup_map hcams hobs hy h1
        exact hne (congrArg Prod.snd hinj)
      obtain ⟨tc, ti, ty, tT⟩ := t
      simp only [] at h1 h2 h3 h4
      subst h1 h2 h4 this
      exact ⟨ty, h3, rfl⟩

omit [Group M] in
/-- The place of a point among those that are seen is that of its term. -/
theorem camTerms_idx {size cam : Nat} {obs : GridObs P} {T : M} {i : Nat} {y : P} (hi : i < size) (hy : obs i = some y) :
    ((camTerms size cam obs T).filterMap id)[(cornersIdx size obs).idxOf i]? = some ⟨cam, i, y, T⟩ := by
  have hgen : ∀ l : List Nat, i ∈ l → ((l.map fun i => (obs i).map fun y => (⟨cam, i, y, T⟩ : Term M P)).filterMap
      id)[(l.filter fun i => (obs i).isSome).idxOf i]? = some ⟨cam, i, y, T⟩ := by
    intro l
    induction l with
    | nil => intro h; simp at h
    | cons a l ih =>
      intro h
      cases ha : obs a with
      | none =>
        have hne : i ≠ a := by rintro rfl; rw [ha] at hy; cases hy
        rw [List.filter_cons_of_neg (by simp [ha]), List.map_cons, List.filterMap_cons_none (by simp [ha])]
        exact ih ((List.mem_cons.1 h).resolve_left hne)
      | some z =>
        rw [List.filter_cons_of_pos (by simp [ha]), List.map_cons, List.filterMap_cons_some (b := ⟨cam, a, z, T⟩) (by simp [ha])]
        by_cases hia : a = i
        · subst hia
          rw [hy, Option.some.injEq] at ha
          subst ha
          simp
        · rw [List.idxOf_cons_ne _ hia]
          exact ih ((List.mem_cons.1 h).resolve_left (Ne.symm hia))
  exact hgen _ (List.mem_range.2 hi)

/-- **C124, in part** The statistics of a point are made from its own error term, if the camera is the first of the view. -/
theorem C124_statistics_partial (X : Nat → M) {numCams size : Nat} {Ttc : M} {rig : List (Nat × GridObs P)} {v : View M P}
    (hrig : ∀ x ∈ rig, x.1 < numCams)
    (hv : fromTargetView numCams size ((List.range (numCams - 1)).map fun b => X (b + 1) * (X b)⁻¹) Ttc rig = .ok v)
    {cam pidx : Nat} {y : P} {obs : GridObs P} (hfirst : rig.head? = some (cam, obs)) (hp : pidx < size)
    (hy : obs pidx = some y) : ∃ t, pointStatistics size v cam pidx = .ok (some t) ∧ t.cam = cam ∧ t.idx = pidx ∧ t.y = y ∧
      t ∈ v.terms := by
  rw [fromTargetView_spec X hrig, Out.ok.injEq] at hv
  subst hv
  cases rig with
  | nil => simp at hfirst
  | cons x rig =>
    simp only [List.head?_cons, Option.some.injEq] at hfirst
    subst hfirst
    have hidx := camTerms_idx (cam := cam) (T := X cam * (X 0)⁻¹ * Ttc⁻¹) hp hy
    have hget : (List.map (fun x => (camTerms size x.1 x.2 (X x.1 * (X 0)⁻¹ * Ttc⁻¹)).filterMap id)
        ((cam, obs) :: rig)).flatten[(cornersIdx size obs).idxOf pidx]? = some ⟨cam, pidx, y, X cam * (X 0)⁻¹ * Ttc⁻¹⟩ := by
      rw [List.map_cons, List.flatten_cons, List.getElem?_append_left (List.getElem?_eq_some_iff.1 hidx).1]
      exact hidx
    refine ⟨⟨cam, pidx, y, X cam * (X 0)⁻¹ * Ttc⁻¹⟩, ?_, rfl, rfl, rfl, List.mem_of_getElem? hget⟩
    unfold pointStatistics
    simp only []
    rw [List.find?_cons_of_pos (by simp)]
    simp only [hy]
    rw [hget]

/-- **C124** For the other cameras the statistics are made from the error terms of the first: the place of the point among the
points that *this* camera sees is taken for a place among the terms of *all* the cameras. Here camera 1 saw point 0 at 20, and
the statistics are those of camera 0, which saw it at 10. -/
theorem C124_statistics_counterexample : ∃ (rig : List (Nat × GridObs Nat)) (v : View (Multiplicative ℤ) Nat) (t : Term (Multiplicative ℤ) Nat),
    fromTargetView 2 2 [Multiplicative.ofAdd 5] 1 rig = .ok v ∧ pointStatistics 2 v 1 0 = .ok (some t) ∧ t.cam = 0 ∧ t.y = 10 ∧
    ∃ obs, (1, obs) ∈ rig ∧ obs 0 = some 20 := by
  refine ⟨[(0, fun i => if i < 2 then some (10 + i) else none), (1, fun i => if i < 2 then some (20 + i) else none)], _, _, rfl,
    rfl, rfl, rfl, _, List.mem_cons_of_mem _ (List.mem_cons_self ..), rfl⟩

/-- **C124** The list of the reprojection errors of a camera has one place for each view, with the terms of the camera in this
view, or `None` if the camera is not in it. -/
theorem C124_errors (views : List (View M P)) (cam : Nat) : (reprojectionErrors views cam).length = views.length ∧
    ∀ k (hk : k < views.length), (∀ l, (reprojectionErrors views cam)[k]? = some (some l) → (cam, l) ∈ views[k].rerrs) ∧
      ((reprojectionErrors views cam)[k]? = some none ↔ cam ∉ views[k].rerrs.map Prod.fst) := by
  refine ⟨by simp [reprojectionErrors], fun k hk => ⟨fun l h => ?_, ?_⟩⟩
  · simp only [reprojectionErrors, List.getElem?_map, List.getElem?_eq_getElem hk, Option.map_some, Option.some.injEq,
      Option.map_eq_some_iff] at h
    obtain ⟨x, hx, rfl⟩ := h
    have h1 := List.mem_of_find?_eq_some hx
    have h2 : x.1 = cam := by simpa using List.find?_some hx
    rw [← h2]; exact h1
  · simp only [reprojectionErrors, List.getElem?_map, List.getElem?_eq_getElem hk, Option.map_some, Option.some.injEq,
      Option.map_eq_none_iff, List.find?_eq_none, List.mem_map, not_exists, not_and]
    constructor
    · intro h x hx hc
      exact h x hx (by simpa using hc)
    · intro h x hx hc
      exact h x hx (by simpa using hc)

/-- The hypotheses of `C124_terms` and `C124_statistics_partial`: two cameras, and a point that is not seen. -/
example : ∃ (rig : List (Nat × GridObs Nat)) (v : View (Multiplicative ℤ) Nat), (∀ x ∈ rig, x.1 < 2) ∧ (rig.map Prod.fst).Nodup ∧
    fromTargetView 2 3 [Multiplicative.ofAdd 5] 1 rig = .ok v ∧ v.terms.length = 5 := by
  refine ⟨[(0, fun i => if i = 1 then none else some (10 + i)), (1, fun i => some (20 + i))], _, ?_, ?_, rfl, rfl⟩
  · intro x hx
    simp only [List.mem_cons, List.not_mem_nil, or_false] at hx
    rcases hx with rfl | rfl <;> decide
  · decide

end Kalibr.App
