import Verif.Init.Props

/-!
# C143: one camera, all cameras, the design variables
-/

namespace Kalibr.Init

open Kalibr.Kin Real

variable {M X Y : Type} [Group M] [MulAction M X]

/-! ## One camera -/

/-- **C143, one camera.** One error term for each corner seen; with exact poses and image points every term starts at zero. -/
theorem C143_intrinsics (pnp : Obs Y → M) (n : ℕ) (dist intr : Bool) (views : List (Obs Y)) :
    (intrinsicsProblem pnp n dist intr views).terms.Nodup ∧
    (∀ e : Term Y, e ∈ (intrinsicsProblem pnp n dist intr views).terms ↔
      e.cam = 0 ∧ ∃ o, views[e.view]? = some o ∧ e.corner < n ∧ o e.corner = some e.y) ∧
    ∀ (proj : ℕ → X → Y) (point : ℕ → X) (T : ℕ → M),
      (∀ (k : ℕ) (o : Obs Y), views[k]? = some o → pnp o = T k ∧ ∀ i y, o i = some y → y = proj 0 ((T k)⁻¹ • point i)) →
      ∀ e ∈ (intrinsicsProblem pnp n dist intr views).terms,
        predict proj point (intrinsicsProblem pnp n dist intr views).baselines
          (fun k => (intrinsicsProblem pnp n dist intr views).poses.getD k 1) e = e.y := by
  have hm : ∀ e : Term Y, e ∈ (intrinsicsProblem pnp n dist intr views).terms ↔
      e.cam = 0 ∧ ∃ o, views[e.view]? = some o ∧ e.corner < n ∧ o e.corner = some e.y := by
    intro e
    refine (viewsOf_mem n 0 views some e).trans ?_
    constructor
    · rintro ⟨h1, a, o, h2, h3, h4, h5⟩
      injection h3 with h3
      rw [h3] at h2
      exact ⟨h1, o, h2, h4, h5⟩
    · rintro ⟨h1, o, h2, h4, h5⟩
      exact ⟨h1, o, o, h2, rfl, h4, h5⟩
  refine ⟨viewsOf_nodup n 0 views some, hm, ?_⟩
  intro proj point T h e he
  obtain ⟨h1, o, h2, h4, h5⟩ := (hm e).1 he
  obtain ⟨g1, g2⟩ := h e.view o h2
  have hp : (views.map pnp).getD e.view 1 = T e.view := by
    rw [List.getD_eq_getElem?_getD, List.getElem?_map, h2]
    exact g1
  unfold predict
  rw [camPose_eq, h1]
  show proj 0 ((1 * ((views.map pnp).getD e.view 1)⁻¹) • point e.corner) = e.y
  rw [hp, one_mul, g2 _ _ h5]

/-! ## All cameras -/

theorem viewTerms_eq (n numCams view : ℕ) (obs : List (ℕ × Obs Y)) :
    viewTerms n numCams view obs = if ∀ x ∈ obs, x.1 < numCams then .ok (obs.flatMap fun x => termsOf n x.1 view x.2) else .raise := by
  have key : ∀ (l : List (ℕ × Obs Y)) (acc : List (Term Y)),
      l.foldlM (fun acc x => if x.1 < numCams then Out.ok (acc ++ termsOf n x.1 view x.2) else .raise) acc =
        if ∀ x ∈ l, x.1 < numCams then Out.ok (acc ++ l.flatMap fun x => termsOf n x.1 view x.2) else .raise := by
    intro l
    induction l with
    | nil => intro acc; simp
    | cons a l ih =>
      intro acc
      rw [List.foldlM_cons]
      by_cases ha : a.1 < numCams
      · rw [if_pos ha, Out.ok_bind, ih]
        by_cases hl : ∀ x ∈ l, x.1 < numCams
        · rw [if_pos hl, if_pos (by
            intro x hx
            rcases List.mem_cons.1 hx with rfl | hx
            · exact ha
            · exact hl x hx), List.flatMap_cons, List.append_assoc]
        · rw [if_neg hl, if_neg fun hc => hl fun x hx => hc x (List.mem_cons_of_mem _ hx)]
      · rw [if_neg ha, if_neg fun hc => ha (hc a (List.mem_cons_self ..))]
        rfl
  unfold viewTerms
  rw [key]
  simp

theorem batch_ok {pnp : ℕ → Obs Y → M} {n numCams : ℕ} {guesses : List M} {views : List (List (ℕ × Obs Y))} {P : Problem M Y}
    (h : batchProblem pnp n numCams guesses views = .ok P) :
    ∃ baselines poses terms, (List.range (numCams - 1)).mapM (firstBaseline guesses) = .ok baselines ∧
      views.mapM (fun v => App.targetPoseGuess (v.map fun x => (x.1, numCorners n x.2))
        (fun c => ((v.find? fun x => x.1 == c).map fun x => pnp c x.2).getD 1) guesses) = .ok poses ∧
      views.zipIdx.mapM (fun v => viewTerms n numCams v.2 v.1) = .ok terms ∧
      P = ⟨baselines, poses,
        (List.range numCams).flatMap (fun c => camDvs c true true) ++ (List.range (numCams - 1)).flatMap baseDvs ++
          (List.range views.length).flatMap poseDvs, terms.flatten⟩ := by
  unfold batchProblem at h
  cases hb : (List.range (numCams - 1)).mapM (firstBaseline guesses) with
  | ub => rw [hb] at h; cases h
  | raise => rw [hb] at h; cases h
  | ok b =>
    rw [hb, Out.ok_bind] at h
    cases hp : views.mapM (fun v => App.targetPoseGuess (v.map fun x => (x.1, numCorners n x.2))
        (fun c => ((v.find? fun x => x.1 == c).map fun x => pnp c x.2).getD 1) guesses) with
    | ub => rw [hp] at h; cases h
    | raise => rw [hp] at h; cases h
    | ok poses =>
      rw [hp, Out.ok_bind] at h
      cases ht : views.zipIdx.mapM (fun v => viewTerms n numCams v.2 v.1) with
      | ub => rw [ht] at h; cases h
      | raise => rw [ht] at h; cases h
      | ok terms =>
        rw [ht, Out.ok_bind] at h
        injection h with h
        exact ⟨b, poses, terms, rfl, rfl, rfl, h.symm⟩

theorem batch_terms {n numCams : ℕ} {views : List (List (ℕ × Obs Y))} {k : ℕ} {terms : List (List (Term Y))}
    (h : (views.zipIdx k).mapM (fun v => viewTerms n numCams v.2 v.1) = .ok terms) :
    (∀ v ∈ views, ∀ x ∈ v, x.1 < numCams) ∧
      terms = (views.zipIdx k).map fun v => v.1.flatMap fun x => termsOf n x.1 v.2 x.2 := by
  induction views generalizing k terms with
  | nil =>
    refine ⟨fun v hv => absurd hv (List.not_mem_nil), ?_⟩
    injection h with h
    exact h.symm
  | cons v views ih =>
    rw [List.zipIdx_cons, List.mapM_cons] at h
    simp only at h
    rw [viewTerms_eq] at h
    by_cases hv : ∀ x ∈ v, x.1 < numCams
    · rw [if_pos hv, Out.ok_bind] at h
      cases ht : (views.zipIdx (k + 1)).mapM (fun v => viewTerms n numCams v.2 v.1) with
      | ub => rw [ht] at h; cases h
      | raise => rw [ht] at h; cases h
      | ok r =>
        rw [ht, Out.ok_bind] at h
        injection h with h
        obtain ⟨h1, h2⟩ := ih ht
        constructor
        · intro w hw
          rcases List.mem_cons.1 hw with rfl | hw
          · exact hv
          · exact h1 w hw
        · rw [← h, List.zipIdx_cons, List.map_cons, h2]
    · rw [if_neg hv] at h
      cases h

/-- **C143, the terms of all cameras.** One error term for each corner that each camera sees in each view, and no other. -/
theorem C143_batch_terms (pnp : ℕ → Obs Y → M) (n numCams : ℕ) (guesses : List M) (views : List (List (ℕ × Obs Y))) (P : Problem M Y)
    (h : batchProblem pnp n numCams guesses views = .ok P) (hc : ∀ v ∈ views, (v.map Prod.fst).Nodup) :
    P.terms.Nodup ∧ ∀ e : Term Y, e ∈ P.terms ↔
      ∃ v o, views[e.view]? = some v ∧ (e.cam, o) ∈ v ∧ e.corner < n ∧ o e.corner = some e.y := by
  obtain ⟨b, poses, terms, -, -, ht, rfl⟩ := batch_ok h
  obtain ⟨-, rfl⟩ := batch_terms ht
  have hflat : ((views.zipIdx.map fun v => v.1.flatMap fun x => termsOf n x.1 v.2 x.2).flatten) =
      views.zipIdx.flatMap fun v => v.1.flatMap fun x => termsOf n x.1 v.2 x.2 := rfl
  simp only
  rw [hflat]
  have hin : ∀ (v : List (ℕ × Obs Y)) (k : ℕ) (e : Term Y), e ∈ (v.flatMap fun x => termsOf n x.1 k x.2) ↔
      e.view = k ∧ ∃ o, (e.cam, o) ∈ v ∧ e.corner < n ∧ o e.corner = some e.y := by
    intro v k e
    rw [List.mem_flatMap]
    constructor
    · rintro ⟨x, hx, he⟩
      obtain ⟨h1, h2, h3, h4⟩ := (termsOf_mem ..).1 he
      exact ⟨h2, x.2, by rw [h1]; exact hx, h3, h4⟩
    · rintro ⟨rfl, o, ho, h3, h4⟩
      exact ⟨(e.cam, o), ho, (termsOf_mem ..).2 ⟨rfl, rfl, h3, h4⟩⟩
  constructor
  · rw [List.nodup_flatMap]
    constructor
    · intro v hv
      rw [List.nodup_flatMap]
      refine ⟨fun x _ => termsOf_nodup .., ?_⟩
      have hmem : v.1 ∈ views := List.mem_of_getElem? (List.mem_zipIdx_iff_getElem?.1 hv)
      refine (List.pairwise_map.1 (hc v.1 hmem)).imp ?_
      intro x y hxy
      rw [Function.onFun, List.disjoint_left]
      intro e hx hy
      exact hxy (((termsOf_mem ..).1 hx).1.symm.trans ((termsOf_mem ..).1 hy).1)
    · refine (zipIdx_ne views 0).imp ?_
      intro x y hxy
      rw [Function.onFun, List.disjoint_left]
      intro e hx hy
      exact hxy (((hin ..).1 hx).1.symm.trans ((hin ..).1 hy).1)
  · intro e
    rw [List.mem_flatMap]
    constructor
    · rintro ⟨v, hv, he⟩
      obtain ⟨h1, o, h2, h3, h4⟩ := (hin ..).1 he
      exact ⟨v.1, o, by rw [h1]; exact List.mem_zipIdx_iff_getElem?.1 hv, h2, h3, h4⟩
    · rintro ⟨v, o, h1, h2, h3, h4⟩
      exact ⟨(v, e.view), List.mem_zipIdx_iff_getElem?.2 h1, (hin ..).2 ⟨rfl, o, h2, h3, h4⟩⟩

theorem find_cam {v : List (ℕ × Obs Y)} (hv : (v.map Prod.fst).Nodup) {x : ℕ × Obs Y} (hx : x ∈ v) :
    (v.find? fun y => y.1 == x.1) = some x := by
  induction v with
  | nil => cases hx
  | cons a v ih =>
    rw [List.map_cons, List.nodup_cons] at hv
    rcases List.mem_cons.1 hx with rfl | hx
    · rw [List.find?_cons_of_pos (by simp)]
    · have : ¬ (a.1 == x.1) = true := by
        rw [beq_iff_eq]
        intro hc
        exact hv.1 (hc ▸ List.mem_map_of_mem hx)
      rw [List.find?_cons_of_neg (by simpa using this)]
      exact ih hv.2 hx

/-- **C143, all cameras with exact data.** Let `X` be the poses of the cameras and `W` those of the target. If the initial
baselines, the poses computed from single observations and the image points are exact, the problem starts at the true poses, and there
every error term compares its image point with the same point, through the chain of baselines up to its camera. -/
theorem C143_batch_exact (pnp : ℕ → Obs Y → M) (n numCams : ℕ) (guesses : List M) (views : List (List (ℕ × Obs Y))) (P : Problem M Y)
    (h : batchProblem pnp n numCams guesses views = .ok P) (hc : ∀ v ∈ views, (v.map Prod.fst).Nodup)
    (proj : ℕ → X → Y) (point : ℕ → X) (Z W : ℕ → M)
    (hg : guesses = (List.range (numCams - 1)).map fun b => Z (b + 1) * (Z b)⁻¹)
    (hv : ∀ (k : ℕ) (v : List (ℕ × Obs Y)), views[k]? = some v → ∀ x ∈ v, pnp x.1 x.2 = W k * (Z x.1)⁻¹ ∧
      ∀ i y, x.2 i = some y → y = proj x.1 ((Z x.1 * (W k)⁻¹) • point i)) :
    P.baselines = guesses ∧ (∀ k < views.length, P.poses[k]? = some (W k * (Z 0)⁻¹)) ∧
      ∀ e ∈ P.terms, predict proj point P.baselines (fun k => P.poses.getD k 1) e = e.y := by
  have hterms := C143_batch_terms pnp n numCams guesses views P h hc
  obtain ⟨b, poses, terms, hb, hp, ht, rfl⟩ := batch_ok h
  obtain ⟨hcam, -⟩ := batch_terms ht
  have hbase : b = guesses := by
    obtain ⟨h1, h2⟩ := mapM_getElem _ _ hb
    apply List.ext_getElem?
    intro i
    have hglen : guesses.length = numCams - 1 := by rw [hg]; simp
    rcases Nat.lt_or_ge i (numCams - 1) with hi | hi
    · obtain ⟨b', hb', hf⟩ := h2 i i (by rw [List.getElem?_range hi])
      rw [hb']
      unfold firstBaseline at hf
      cases hgi : guesses[i]? with
      | none => simp [hgi] at hf
      | some g =>
        simp only [hgi, Out.ok.injEq] at hf
        rw [hf]
    · rw [List.getElem?_eq_none (by rw [h1, List.length_range]; exact hi), List.getElem?_eq_none (by omega)]
  have hposes : ∀ k < views.length, poses[k]? = some (W k * (Z 0)⁻¹) := by
    intro k hk
    obtain ⟨v, hvk⟩ : ∃ v, views[k]? = some v := ⟨views[k], List.getElem?_eq_getElem hk⟩
    have hmem : v ∈ views := List.mem_of_getElem? hvk
    obtain ⟨T, hT, hf⟩ := (mapM_getElem _ _ hp).2 k v hvk
    rw [hT]
    congr 1
    refine App.C123_target (numCams := numCams) Z (W k) ?_ ?_ hg hf
    · intro c hc
      obtain ⟨x, hx, rfl⟩ := List.mem_map.1 hc
      exact hcam v hmem x hx
    · intro c hc' _
      obtain ⟨x, hx, rfl⟩ := List.mem_map.1 hc'
      simp only
      rw [find_cam (hc v hmem) hx]
      exact (hv k v hvk x hx).1
  refine ⟨hbase, hposes, ?_⟩
  intro e he
  obtain ⟨v, o, h1, h2, h3, h4⟩ := (hterms.2 e).1 he
  have hk : e.view < views.length := by
    by_contra hcon
    rw [List.getElem?_eq_none (by omega)] at h1
    cases h1
  have hpose : poses.getD e.view 1 = W e.view * (Z 0)⁻¹ := by
    rw [List.getD_eq_getElem?_getD, hposes _ hk]
    rfl
  have hlt := hcam v (List.mem_of_getElem? h1) _ h2
  unfold predict
  simp only [hpose]
  rw [camPose_eq, hbase, hg, App.take_chain Z _ _ (by omega), (hv _ _ h1 _ h2).2 _ _ h4]
  congr 2
  group

/-! ## The design variables -/

theorem flatMap_names {f : ℕ → List (Dv × Bool)} (hf : ∀ i, ((f i).map Prod.fst).Nodup)
    (hd : ∀ i j, i ≠ j → ∀ d, d ∈ (f i).map Prod.fst → d ∉ (f j).map Prod.fst) (n : ℕ) :
    (((List.range n).flatMap f).map Prod.fst).Nodup := by
  rw [List.map_flatMap, List.nodup_flatMap]
  refine ⟨fun i _ => hf i, ?_⟩
  refine List.Pairwise.imp ?_ (List.nodup_range (n := n))
  intro i j hij
  rw [Function.onFun, List.disjoint_left]
  exact hd i j hij

theorem pose_names (n : ℕ) : (((List.range n).flatMap poseDvs).map Prod.fst).Nodup := by
  apply flatMap_names
  · intro i; simp [poseDvs]
  · intro i j hij d hd
    simp [poseDvs] at hd ⊢
    rcases hd with rfl | rfl <;> simp [hij]

theorem base_names (n : ℕ) : (((List.range n).flatMap baseDvs).map Prod.fst).Nodup := by
  apply flatMap_names
  · intro i; simp [baseDvs]
  · intro i j hij d hd
    simp [baseDvs] at hd ⊢
    rcases hd with rfl | rfl <;> simp [hij]

theorem cam_names (n : ℕ) : (((List.range n).flatMap fun c => camDvs c true true).map Prod.fst).Nodup := by
  apply flatMap_names
  · intro i; simp [camDvs]
  · intro i j hij d hd
    simp [camDvs] at hd ⊢
    rcases hd with rfl | rfl | rfl <;> simp [hij]

/-- What an error term depends on, with what has to be active. -/
def needs (projection distortion : Bool) (e : Term Y) (d : Dv × Bool) : Prop :=
  d = (.dist e.cam, distortion) ∨ d = (.proj e.cam, projection) ∨ d = (.shutter e.cam, false) ∨ d = (.poseQ e.view, true) ∨ d = (.poseT e.view, true) ∨
    ∃ i < e.cam, d = (.baseQ i, true) ∨ d = (.baseT i, true)

theorem mem_pose {n : ℕ} {d : Dv × Bool} : d ∈ (List.range n).flatMap poseDvs ↔ ∃ k < n, d = (.poseQ k, true) ∨ d = (.poseT k, true) := by
  simp [poseDvs]

theorem mem_base {n : ℕ} {d : Dv × Bool} : d ∈ (List.range n).flatMap baseDvs ↔ ∃ k < n, d = (.baseQ k, true) ∨ d = (.baseT k, true) := by
  simp [baseDvs]

theorem mem_cam {n : ℕ} {d : Dv × Bool} : d ∈ ((List.range n).flatMap fun c => camDvs c true true) ↔
    ∃ k < n, d = (.dist k, true) ∨ d = (.proj k, true) ∨ d = (.shutter k, false) := by
  simp [camDvs]

/-- **C143, the design variables of a pair.** No design variable is added twice, and all on which an error term depends are there: poses,
baseline and projection active, the distortion if it was asked for, the shutter not. -/
theorem C143_stereo_variables (C : M → M3) (t : M → V3) (make : M3 → V3 → M) (pnpL pnpH : Obs Y → M) (n : ℕ) (act : Bool) (b0 : Option M)
    (views : List (Option (Obs Y) × Option (Obs Y))) (P : Problem M Y) (h : stereoProblem C t make pnpL pnpH n act b0 views = .ok P) :
    (P.dvs.map Prod.fst).Nodup ∧ ∀ e ∈ P.terms, ∀ d, needs true act e d → d ∈ P.dvs := by
  have hterms := (C143_stereo_terms _ _ _ _ _ _ _ _ _ _ h).2
  obtain ⟨b, poses, -, -, rfl⟩ := stereo_ok h
  constructor
  · simp only [List.map_append]
    have hp := pose_names views.length
    have hno : ∀ d ∈ ((List.range views.length).flatMap poseDvs).map Prod.fst, ∃ k, d = Dv.poseQ k ∨ d = Dv.poseT k := by
      intro d hd
      obtain ⟨x, hx, rfl⟩ := List.mem_map.1 hd
      obtain ⟨k, -, rfl | rfl⟩ := mem_pose.1 hx
      · exact ⟨k, Or.inl rfl⟩
      · exact ⟨k, Or.inr rfl⟩
    rw [List.nodup_append, List.nodup_append, List.nodup_append]
    refine ⟨⟨⟨by simp, hp, ?_⟩, by simp [camDvs], ?_⟩, by simp [camDvs], ?_⟩
    · intro d hd d' hd' hdd
      obtain ⟨k, hk⟩ := hno d' hd'
      rw [← hdd] at hk
      simp at hd
      rcases hd with rfl | rfl <;> simp at hk
    · intro d hd d' hd' hdd
      rw [← hdd] at hd'
      rcases List.mem_append.1 hd with hd | hd
      · simp at hd
        simp [camDvs] at hd'
        rcases hd with rfl | rfl <;> simp at hd'
      · obtain ⟨k, hk⟩ := hno d hd
        simp [camDvs] at hd'
        rcases hk with rfl | rfl <;> simp at hd'
    · intro d hd d' hd' hdd
      rw [← hdd] at hd'
      simp [camDvs] at hd'
      rcases List.mem_append.1 hd with hd | hd
      · rcases List.mem_append.1 hd with hd | hd
        · simp at hd
          rcases hd with rfl | rfl <;> simp at hd'
        · obtain ⟨k, hk⟩ := hno d hd
          rcases hk with rfl | rfl <;> simp at hd'
      · simp [camDvs] at hd
        rcases hd with rfl | rfl | rfl <;> simp at hd'
  · intro e he d hd
    obtain ⟨o, ho, -⟩ := (hterms e).1 he
    unfold seen at ho
    cases hv : views[e.view]? with
    | none => simp [hv] at ho
    | some v =>
      have hk : e.view < views.length := by
        by_contra hcon
        rw [List.getElem?_eq_none (by omega)] at hv
        cases hv
      have hcam : e.cam = 0 ∨ e.cam = 1 := by
        by_contra hcon
        push Not at hcon
        simp [hv, hcon.1, hcon.2] at ho
      simp only [List.mem_append]
      rcases hd with rfl | rfl | rfl | rfl | rfl | ⟨i, hi, hd⟩
      · rcases hcam with h0 | h0 <;> simp [h0, camDvs]
      · rcases hcam with h0 | h0 <;> simp [h0, camDvs]
      · rcases hcam with h0 | h0 <;> simp [h0, camDvs]
      · exact Or.inl (Or.inl (Or.inr (mem_pose.2 ⟨_, hk, Or.inl rfl⟩)))
      · exact Or.inl (Or.inl (Or.inr (mem_pose.2 ⟨_, hk, Or.inr rfl⟩)))
      · have hi0 : i = 0 := by omega
        rw [hi0] at hd
        rcases hd with rfl | rfl <;> simp

/-- **C143, the design variables of one camera.** Each exists once and is active exactly as asked. -/
theorem C143_intrinsics_variables (pnp : Obs Y → M) (n : ℕ) (dist intr : Bool) (views : List (Obs Y)) :
    ((intrinsicsProblem pnp n dist intr views).dvs.map Prod.fst).Nodup ∧
    ∀ e ∈ (intrinsicsProblem pnp n dist intr views).terms, ∀ d, needs intr dist e d → d ∈ (intrinsicsProblem pnp n dist intr views).dvs := by
  constructor
  · show ((camDvs 0 intr dist ++ (List.range views.length).flatMap poseDvs).map Prod.fst).Nodup
    rw [List.map_append, List.nodup_append]
    refine ⟨by simp [camDvs], pose_names _, ?_⟩
    intro d hd d' hd' hdd
    obtain ⟨y, hy, rfl⟩ := List.mem_map.1 hd'
    obtain ⟨j, -, hj⟩ := mem_pose.1 hy
    rw [hdd] at hd
    simp [camDvs] at hd
    rcases hj with rfl | rfl <;> simp at hd
  · intro e he d hd
    obtain ⟨h1, o, h2, -⟩ := ((C143_intrinsics (X := M) pnp n dist intr views).2.1 e).1 he
    have hk : e.view < views.length := by
      by_contra hcon
      rw [List.getElem?_eq_none (by omega)] at h2
      cases h2
    show d ∈ camDvs 0 intr dist ++ (List.range views.length).flatMap poseDvs
    rw [List.mem_append]
    rcases hd with rfl | rfl | rfl | rfl | rfl | ⟨i, hi, hd⟩
    · simp [h1, camDvs]
    · simp [h1, camDvs]
    · simp [h1, camDvs]
    · exact Or.inr (mem_pose.2 ⟨_, hk, Or.inl rfl⟩)
    · exact Or.inr (mem_pose.2 ⟨_, hk, Or.inr rfl⟩)
    · omega

/-- **C143, the design variables of all cameras.** -/
theorem C143_batch_variables (pnp : ℕ → Obs Y → M) (n numCams : ℕ) (guesses : List M) (views : List (List (ℕ × Obs Y))) (P : Problem M Y)
    (h : batchProblem pnp n numCams guesses views = .ok P) (hc : ∀ v ∈ views, (v.map Prod.fst).Nodup) :
    (P.dvs.map Prod.fst).Nodup ∧ ∀ e ∈ P.terms, ∀ d, needs true true e d → d ∈ P.dvs := by
  have hterms := (C143_batch_terms pnp n numCams guesses views P h hc).2
  obtain ⟨b, poses, terms, -, -, ht, rfl⟩ := batch_ok h
  obtain ⟨hcam, -⟩ := batch_terms ht
  constructor
  · simp only [List.map_append]
    rw [List.nodup_append, List.nodup_append]
    refine ⟨⟨cam_names _, base_names _, ?_⟩, pose_names _, ?_⟩
    · intro d hd d' hd' hdd
      obtain ⟨x, hx, rfl⟩ := List.mem_map.1 hd
      obtain ⟨y, hy, rfl⟩ := List.mem_map.1 hd'
      obtain ⟨k, -, hk⟩ := mem_cam.1 hx
      obtain ⟨j, -, hj⟩ := mem_base.1 hy
      rcases hk with rfl | rfl | rfl <;> rcases hj with rfl | rfl <;> simp at hdd
    · intro d hd d' hd' hdd
      obtain ⟨y, hy, rfl⟩ := List.mem_map.1 hd'
      obtain ⟨j, -, hj⟩ := mem_pose.1 hy
      rcases List.mem_append.1 hd with hd | hd
      · obtain ⟨x, hx, rfl⟩ := List.mem_map.1 hd
        obtain ⟨k, -, hk⟩ := mem_cam.1 hx
        rcases hk with rfl | rfl | rfl <;> rcases hj with rfl | rfl <;> simp at hdd
      · obtain ⟨x, hx, rfl⟩ := List.mem_map.1 hd
        obtain ⟨k, -, hk⟩ := mem_base.1 hx
        rcases hk with rfl | rfl <;> rcases hj with rfl | rfl <;> simp at hdd
  · intro e he d hd
    obtain ⟨v, o, h1, h2, -⟩ := (hterms e).1 he
    have hk : e.view < views.length := by
      by_contra hcon
      rw [List.getElem?_eq_none (by omega)] at h1
      cases h1
    have hlt := hcam v (List.mem_of_getElem? h1) _ h2
    simp only at hlt
    simp only [List.mem_append]
    rcases hd with rfl | rfl | rfl | rfl | rfl | ⟨i, hi, hd⟩
    · exact Or.inl (Or.inl (mem_cam.2 ⟨_, hlt, Or.inl rfl⟩))
    · exact Or.inl (Or.inl (mem_cam.2 ⟨_, hlt, Or.inr (Or.inl rfl)⟩))
    · exact Or.inl (Or.inl (mem_cam.2 ⟨_, hlt, Or.inr (Or.inr rfl)⟩))
    · exact Or.inr (mem_pose.2 ⟨_, hk, Or.inl rfl⟩)
    · exact Or.inr (mem_pose.2 ⟨_, hk, Or.inr rfl⟩)
    · exact Or.inl (Or.inr (mem_base.2 ⟨i, by omega, hd⟩))

/-! ## Half turns -/

theorem median_two (a b : ℝ) : median [a, b] = (a + b) / 2 := by
  unfold median
  by_cases h : a ≤ b
  · simp [List.insertionSort, List.orderedInsert, h]
  · simp [List.insertionSort, List.orderedInsert, h]
    ring

/-- **C143, counterexample.** Two cameras of which one is mounted upside down: the baselines of two views turn by nearly
half a turn about the same axis, one by a bit less and one by a bit more, so that their matrices are as near as one likes.
The components of their rotation vectors have opposite signs, and the initial baseline does not turn at all. -/
theorem C143_half_turn_counterexample (d : ℝ) (h0 : 1 / 10 ^ 13 ≤ d) (h1 : d ≤ 1) :
    ∃ b1 b2 : M3 × V3, b1.1 ∈ SO3 ∧ b2.1 ∈ SO3 ∧ (∀ i j, |b1.1 i j - b2.1 i j| ≤ d) ∧ b1.1 0 0 < -1 / 2 ∧ b2.1 0 0 < -1 / 2 ∧
      stereoGuess Prod.fst Prod.snd Prod.mk [b1, b2] = .ok (1, 0) := by
  have h3 := pi_gt_three
  have h13 : (0 : ℝ) < 1 / 10 ^ 13 := by norm_num
  obtain ⟨a, ha⟩ : ∃ a, a = π - d / 2 := ⟨_, rfl⟩
  have ha1 : 1 ≤ a := by linarith
  have ha2 : a ≤ π - 1 / 10 ^ 14 := by
    have : (1 : ℝ) / 10 ^ 14 ≤ 1 / 10 ^ 13 / 2 := by norm_num
    linarith
  have hn : ∀ s : ℝ, s = 1 ∨ s = -1 → norm3 ![0, 0, s * a] = a := by
    intro s hs
    unfold norm3
    simp only [Matrix.cons_val]
    have : (0 : ℝ) ^ 2 + 0 ^ 2 + (s * a) ^ 2 = a ^ 2 := by
      rcases hs with rfl | rfl <;> ring
    rw [this, Real.sqrt_sq (by linarith)]
  have ht : ∀ s : ℝ, s = 1 ∨ s = -1 → rvOfR (rvToR ![0, 0, s * a]) = ![0, 0, s * a] := by
    intro s hs
    apply C51_vector_round_trip_partial
    right
    rw [hn s hs]
    exact ⟨le_trans (by norm_num) ha1, ha2⟩
  have hR : ∀ s : ℝ, s = 1 ∨ s = -1 → rvToR ![0, 0, s * a] = axisAngleMx a ![0, 0, s] := by
    intro s hs
    unfold rvToR
    simp only [hn s hs]
    rw [if_neg (not_lt.2 (le_trans (by norm_num) ha1))]
    congr 1
    apply ext3 <;> simp
    field_simp
  have hc : cos a < -1 / 2 := by
    rw [ha, cos_pi_sub]
    have : 1 / 2 < cos (d / 2) := by
      have := one_sub_sq_div_two_le_cos (x := d / 2)
      nlinarith
    linarith
  have hs : |sin a| ≤ d / 2 := by
    rw [ha, sin_pi_sub, abs_of_nonneg (sin_nonneg_of_nonneg_of_le_pi (by linarith) (by linarith))]
    exact sin_le (by linarith)
  refine ⟨(rvToR ![0, 0, 1 * a], 0), (rvToR ![0, 0, -1 * a], 0), (C51_matrix_is_rotation _).1, (C51_matrix_is_rotation _).1, ?_, ?_, ?_, ?_⟩
  · intro i j
    simp only [hR 1 (Or.inl rfl), hR (-1) (Or.inr rfl)]
    have hs2 : |sin a + sin a| ≤ d := by
      rw [← two_mul, abs_mul, abs_two]
      linarith
    have hs3 : |-sin a - sin a| ≤ d := by
      rw [show -sin a - sin a = -(sin a + sin a) by ring, abs_neg]
      exact hs2
    have hd0 : 0 ≤ d := by linarith
    fin_cases i <;> fin_cases j <;> simp [axisAngleMx, hd0, hs2, hs3]
  · simp only [hR 1 (Or.inl rfl)]
    simp [axisAngleMx]
    linarith
  · simp only [hR (-1) (Or.inr rfl)]
    simp [axisAngleMx]
    linarith
  · unfold stereoGuess
    rw [if_neg (by simp)]
    congr 2
    · have : median3 [![0, 0, 1 * a], ![0, 0, -1 * a]] = 0 := by
        unfold median3
        funext k
        simp only [List.map_cons, List.map_nil]
        rw [median_two]
        fin_cases k <;> simp
      simp only [List.map_cons, List.map_nil, ht 1 (Or.inl rfl), ht (-1) (Or.inr rfl), this]
      unfold rvToR
      have : norm3 0 = 0 := by simp [norm3]
      simp [this]
    · funext k
      unfold median3
      simp only [List.map_cons, List.map_nil]
      rw [median_two]
      simp

/-! ## The hypotheses can be met -/

/-- Two views of a target with two corners, on a line: shifts as poses, no rotation. The first view is seen by both cameras,
the second by the second one alone. `C143_stereo_exact_partial`, `C143_stereo_terms`, `C143_stereo_variables`, `C143_stereo_result`
and `C143_stereo_total` speak about something. -/
example : ∃ P : Problem (Multiplicative ℤ) ℤ,
    stereoProblem (fun _ => 1) (fun b : Multiplicative ℤ => ![((Multiplicative.toAdd b : ℤ) : ℝ), 0, 0]) (fun _ t => Multiplicative.ofAdd ⌊t 0⌋)
      (fun o : Obs ℤ => Multiplicative.ofAdd (-(o 0).getD 0)) (fun o => Multiplicative.ofAdd (-(o 0).getD 0)) 2 false none
      [(some fun i => some (5 + i), some fun i => some (8 + i)), (none, some fun i => some (i : ℤ))] = .ok P ∧
    P.baselines = [Multiplicative.ofAdd 3] ∧ P.terms.length = 6 := by
  obtain ⟨P, hP, hb, -⟩ := C143_stereo_exact_partial (M := Multiplicative ℤ) (X := Multiplicative ℤ) (fun _ => 1)
    (fun b : Multiplicative ℤ => ![((Multiplicative.toAdd b : ℤ) : ℝ), 0, 0]) (fun _ t => Multiplicative.ofAdd ⌊t 0⌋)
    (fun o : Obs ℤ => Multiplicative.ofAdd (-(o 0).getD 0)) (fun o => Multiplicative.ofAdd (-(o 0).getD 0)) 2 false
    [(some fun i => some (5 + i), some fun i => some (8 + i)), (none, some fun i => some (i : ℤ))]
    (fun _ x => Multiplicative.toAdd x) (fun i => Multiplicative.ofAdd (i : ℤ))
    (fun k => if k = 0 then Multiplicative.ofAdd (-5) else Multiplicative.ofAdd 3) (Multiplicative.ofAdd 3)
    (by simp) (Submonoid.one_mem _) (Or.inl rfl)
    (by
      intro k o ho
      rcases k with _ | _ | k
      · simp only [seen, List.getElem?_cons_zero, if_pos, Option.some.injEq] at ho
        rw [← ho]
        refine ⟨rfl, ?_⟩
        intro i y hy
        simp only [Option.some.injEq] at hy
        rw [← hy, if_pos rfl]
        rfl
      · simp [seen] at ho
      · simp [seen] at ho)
    (by
      intro k o ho
      rcases k with _ | _ | k
      · have ho' : (fun i : ℕ => some (8 + (i : ℤ))) = o := by simpa [seen] using ho
        rw [← ho']
        refine ⟨rfl, ?_⟩
        intro i y hy
        simp only [Option.some.injEq] at hy
        rw [← hy, if_pos rfl]
        rfl
      · have ho' : (fun i : ℕ => some (i : ℤ)) = o := by simpa [seen] using ho
        rw [← ho']
        refine ⟨rfl, ?_⟩
        intro i y hy
        simp only [Option.some.injEq] at hy
        rw [← hy, if_neg (by omega)]
        show (i : ℤ) = 3 + -3 + i
        ring
      · simp [seen] at ho)
    ⟨_, List.mem_cons_self .., rfl, rfl⟩ (by simp)
  refine ⟨P, hP, hb, ?_⟩
  obtain ⟨b, poses, -, -, rfl⟩ := stereo_ok hP
  rfl

/-- Three cameras at 0, 3 and 4 on a line and two views, one of them without the first camera: the hypotheses of `C143_batch_terms`,
`C143_batch_exact` and `C143_batch_variables` can be met, and those of the last part of `C143_intrinsics`. -/
example : ∃ (P : Problem (Multiplicative ℤ) ℤ) (Z W : ℕ → Multiplicative ℤ) (views : List (List (ℕ × Obs ℤ))) (pnp : ℕ → Obs ℤ → Multiplicative ℤ),
    views.length = 2 ∧ P.terms.length = 5 ∧
    batchProblem pnp 2 3 ((List.range (3 - 1)).map fun b => Z (b + 1) * (Z b)⁻¹) views = .ok P ∧
    (∀ v ∈ views, (v.map Prod.fst).Nodup) ∧
    ∀ (k : ℕ) (v : List (ℕ × Obs ℤ)), views[k]? = some v → ∀ x ∈ v, pnp x.1 x.2 = W k * (Z x.1)⁻¹ ∧
      ∀ i y, x.2 i = some y → y = Multiplicative.toAdd ((Z x.1 * (W k)⁻¹) • Multiplicative.ofAdd (i : ℤ)) := by
  refine ⟨_, fun c => Multiplicative.ofAdd (if c = 0 then 0 else (c : ℤ) + 2), fun k => Multiplicative.ofAdd (k : ℤ),
    [[(0, fun i => if i = 0 then some 0 else none), (2, fun i => some (4 + i))], [(1, fun i => some (2 + i))]],
    fun _ o => Multiplicative.ofAdd (-(o 0).getD 0), rfl, ?_, rfl, ?_, ?_⟩
  · rfl
  · intro v hv
    simp at hv
    rcases hv with rfl | rfl <;> simp
  · intro k v hv
    rcases k with _ | _ | k
    · simp only [List.getElem?_cons_zero, Option.some.injEq] at hv
      subst hv
      intro x hx
      simp only [List.mem_cons, List.not_mem_nil, or_false] at hx
      rcases hx with rfl | rfl
      · refine ⟨rfl, ?_⟩
        intro i y hy
        by_cases hi : i = 0
        · subst hi
          simp at hy
          rw [← hy]
          rfl
        · simp [hi] at hy
      · refine ⟨rfl, ?_⟩
        intro i y hy
        simp only [Option.some.injEq] at hy
        rw [← hy]
        rfl
    · simp at hv
      subst hv
      intro x hx
      simp only [List.mem_cons, List.not_mem_nil, or_false] at hx
      subst hx
      refine ⟨rfl, ?_⟩
      intro i y hy
      simp only [Option.some.injEq] at hy
      rw [← hy]
      rfl
    · simp at hv

end Kalibr.Init
