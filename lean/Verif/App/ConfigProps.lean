import Verif.App.Config
import Verif.Tactics
import Mathlib.Data.List.GetD

/-!
# The configuration files of the camera calibration: proofs (C127)
-/

namespace Kalibr.App.Config

variable {M : Type}

theorem bind_ok {α β : Type} {x : Py α} {f : α → Py β} {b : β} : (x >>= f) = .ok b ↔ ∃ a, x = .ok a ∧ f a = .ok b := by
  cases x with
  | error e => constructor
               · intro h; cases h
               · rintro ⟨a, h, -⟩; cases h
  | ok a => constructor
            · intro h; exact ⟨a, rfl, h⟩
            · rintro ⟨a', h, h2⟩; cases h; exact h2

theorem ok_bind {α β : Type} {a : α} {f : α → Py β} : ((.ok a : Py α) >>= f) = f a := rfl

theorem checkFocal_iff {f0 f1 p0 p1 : Num} : checkFocal [f0, f1] [p0, p1] = .ok () ↔
    ∃ fu fv pu pv : ℚ, f0 = .flt fu ∧ f1 = .flt fv ∧ p0 = .flt pu ∧ p1 = .flt pv ∧ 0 ≤ fu ∧ 0 ≤ fv ∧ 0 ≤ pu ∧ 0 ≤ pv := by
  cases f0 <;> cases f1 <;> cases p0 <;> cases p1 <;>
    simp only [checkFocal, List.getElem?_cons_zero, List.getElem?_cons_succ, Num.isFloat, Num.val, Bool.not_true, Bool.not_false,
      Bool.false_or, Bool.true_or, Bool.or_true, if_true, reduceCtorEq, false_and, and_false, exists_false, Bool.or_false,
      Num.flt.injEq]
  case flt.flt.flt.flt a b c d =>
    by_cases h1 : a < 0 <;> by_cases h2 : b < 0 <;> by_cases h3 : c < 0 <;> by_cases h4 : d < 0 <;>
      simp only [h1, h2, h3, h4, decide_true, decide_false, Bool.or_true, Bool.or_false, if_true, if_false, Bool.true_or,
        Bool.false_eq_true, reduceCtorEq, false_iff, true_iff, not_exists, not_and, Bool.or_self] <;>
      first
      | (rintro a' b' c' d' rfl rfl rfl rfl; intros; linarith)
      | (push Not at h1 h2 h3 h4; exact ⟨a, b, c, d, rfl, rfl, rfl, rfl, h1, h2, h3, h4⟩)
  all_goals
    try (split_ifs <;> simp)

/-- **C127** Parameters are accepted if and only if the model is one of the four, their number is that of the model, the focal
lengths and the principal point are floats and not negative, and the parameters of the model are in their range. -/
theorem C127_intrinsics (model : String) (v : List Num) : checkIntrinsics model v = .ok () ↔ ValidIntrinsics model v := by
  constructor
  · intro h
    unfold checkIntrinsics at h
    by_cases h1 : model = "pinhole"
    · subst h1
      rw [if_pos rfl] at h
      rcases v with _ | ⟨a, _ | ⟨b, _ | ⟨c, _ | ⟨d, _ | ⟨e, l⟩⟩⟩⟩⟩ <;> simp at h
      rw [checkFocal_iff] at h
      obtain ⟨fu, fv, pu, pv, rfl, rfl, rfl, rfl, h⟩ := h
      exact ⟨[], fu, fv, pu, pv, rfl, h.1, h.2.1, h.2.2.1, h.2.2.2, .inl ⟨rfl, rfl⟩⟩
    rw [if_neg h1] at h
    by_cases h2 : model = "omni"
    · subst h2
      rw [if_pos rfl] at h
      rcases v with _ | ⟨x, _ | ⟨a, _ | ⟨b, _ | ⟨c, _ | ⟨d, _ | ⟨e, l⟩⟩⟩⟩⟩⟩ <;> simp at h
      by_cases hx : x.val < 0
      · rw [if_pos hx] at h; cases h
      rw [if_neg hx] at h
      push Not at hx
      rw [checkFocal_iff] at h
      obtain ⟨fu, fv, pu, pv, rfl, rfl, rfl, rfl, h⟩ := h
      exact ⟨[x], fu, fv, pu, pv, rfl, h.1, h.2.1, h.2.2.1, h.2.2.2, .inr (.inl ⟨rfl, x, rfl, hx⟩)⟩
    rw [if_neg h2] at h
    by_cases h3 : model = "ds"
    · subst h3
      rw [if_pos rfl] at h
      rcases v with _ | ⟨x, _ | ⟨y, _ | ⟨a, _ | ⟨b, _ | ⟨c, _ | ⟨d, _ | ⟨e, l⟩⟩⟩⟩⟩⟩⟩ <;> simp at h
      by_cases hx : y.val < 0 ∨ 1 ≤ y.val
      · rw [if_pos hx] at h; cases h
      rw [if_neg hx] at h
      push Not at hx
      obtain ⟨hx1, hx2⟩ := hx
      rw [checkFocal_iff] at h
      obtain ⟨fu, fv, pu, pv, rfl, rfl, rfl, rfl, h⟩ := h
      exact ⟨[x, y], fu, fv, pu, pv, rfl, h.1, h.2.1, h.2.2.1, h.2.2.2, .inr (.inr (.inl ⟨rfl, x, y, rfl, hx1, hx2⟩))⟩
    rw [if_neg h3] at h
    by_cases h4 : model = "eucm"
    · subst h4
      rw [if_pos rfl] at h
      rcases v with _ | ⟨x, _ | ⟨y, _ | ⟨a, _ | ⟨b, _ | ⟨c, _ | ⟨d, _ | ⟨e, l⟩⟩⟩⟩⟩⟩⟩ <;> simp at h
      by_cases hx : x.val < 0 ∨ 1 ≤ x.val
      · rw [if_pos hx] at h; cases h
      rw [if_neg hx] at h
      push Not at hx
      obtain ⟨hx1, hx2⟩ := hx
      by_cases hy : y.val < 0
      · rw [if_pos hy] at h; cases h
      rw [if_neg hy] at h
      push Not at hy
      rw [checkFocal_iff] at h
      obtain ⟨fu, fv, pu, pv, rfl, rfl, rfl, rfl, h⟩ := h
      exact ⟨[x, y], fu, fv, pu, pv, rfl, h.1, h.2.1, h.2.2.1, h.2.2.2, .inr (.inr (.inr ⟨rfl, x, y, rfl, hx1, hx2, hy⟩))⟩
    rw [if_neg h4] at h
    cases h
  · rintro ⟨front, fu, fv, pu, pv, rfl, hfu, hfv, hpu, hpv, h⟩
    have hf : checkFocal [.flt fu, .flt fv] [.flt pu, .flt pv] = .ok () :=
      checkFocal_iff.2 ⟨fu, fv, pu, pv, rfl, rfl, rfl, rfl, hfu, hfv, hpu, hpv⟩
    rcases h with ⟨rfl, rfl⟩ | ⟨rfl, xi, rfl, hx⟩ | ⟨rfl, xi, al, rfl, ha1, ha2⟩ | ⟨rfl, al, be, rfl, ha1, ha2, hb⟩
    · simpa [checkIntrinsics] using hf
    · simp [checkIntrinsics, not_lt.2 hx]
      exact hf
    · simp [checkIntrinsics, not_lt.2 ha1, not_le.2 ha2]
      exact hf
    · simp [checkIntrinsics, not_lt.2 ha1, not_le.2 ha2, not_lt.2 hb]
      exact hf

/-- **C127** What is set is what is read: after a set that is accepted, the reader returns the model and the same numbers, and the
other fields are as they were. -/
theorem C127_set_get {d d' : CamDict M} {model : String} {v : List Num} (h : setIntrinsics d model v = .ok d') :
    ∃ v', getIntrinsics d' = .ok (model, v') ∧ v'.map Num.val = v.map Num.val ∧ d'.distortion_model = d.distortion_model ∧
      d'.distortion_coeffs = d.distortion_coeffs ∧ d'.resolution = d.resolution ∧ d'.T_cn_cnm1 = d.T_cn_cnm1 ∧
      d'.T_cam_imu = d.T_cam_imu ∧ d'.timeshift = d.timeshift ∧ d'.cam_overlaps = d.cam_overlaps := by
  unfold setIntrinsics at h
  rw [bind_ok] at h
  obtain ⟨_, hc, h⟩ := h
  have hd : { d with camera_model := some model, intrinsics := some (v.map fun x => Num.flt x.val) } = d' := Except.ok.inj h
  subst hd
  have hc' : checkIntrinsics model (v.map fun x => Num.flt x.val) = .ok () := by
    rw [C127_intrinsics] at hc ⊢
    obtain ⟨front, fu, fv, pu, pv, rfl, h1, h2, h3, h4, h5⟩ := hc
    refine ⟨front.map fun x => .flt x.val, fu, fv, pu, pv, by simp [Num.val], h1, h2, h3, h4, ?_⟩
    rcases h5 with ⟨rfl, rfl⟩ | ⟨rfl, xi, rfl, hx⟩ | ⟨rfl, xi, al, rfl, ha1, ha2⟩ | ⟨rfl, al, be, rfl, ha1, ha2, hb⟩
    · exact .inl ⟨rfl, rfl⟩
    · exact .inr (.inl ⟨rfl, _, rfl, hx⟩)
    · exact .inr (.inr (.inl ⟨rfl, _, _, rfl, ha1, ha2⟩))
    · exact .inr (.inr (.inr ⟨rfl, _, _, rfl, ha1, ha2, hb⟩))
  refine ⟨v.map fun x => .flt x.val, ?_, by simp [Num.val, Function.comp_def], rfl, rfl, rfl, rfl, rfl, rfl, rfl⟩
  unfold getIntrinsics field
  simp only [ok_bind, hc']
  rfl

theorem places_map {l : List ℚ} {n : Nat} (h : l.length = n) : places (l.map .flt) (List.range n) = .ok l := by
  have hgen : ∀ k ≤ l.length, places (l.map .flt) (List.range k) = .ok (l.take k) := by
    intro k
    induction k with
    | zero => intro _; rfl
    | succ k ih =>
      intro hk
      unfold places at ih ⊢
      rw [List.range_succ, List.mapM_append, ih (by omega), ok_bind]
      simp only [List.mapM_cons, List.mapM_nil, List.getElem?_map, List.getElem?_eq_getElem (show k < l.length by omega),
        Option.map_some, ok_bind, Num.val]
      rw [List.take_add_one, List.getElem?_eq_getElem (show k < l.length by omega)]
      rfl
  have := hgen n (by omega)
  rwa [List.take_of_length_le (by omega)] at this

theorem build_ok {cls : Cls} {i d : List ℚ} {ni nd : Nat} {w h : ℤ} (hi : i.length = ni) (hd : d.length = nd) :
    build cls (i.map .flt) (d.map .flt) ni nd [.int w, .int h] = .ok (some ⟨cls, i, d, (w, h)⟩) := by
  unfold build
  rw [places_map hi, places_map hd]
  rfl

/-- The number of the parameters of a class. -/
def dims : Cls → Nat × Nat
  | .pinhole => (4, 0)
  | .distortedPinhole => (4, 4)
  | .equidistantPinhole => (4, 4)
  | .fovPinhole => (4, 1)
  | .omni => (5, 0)
  | .distortedOmni => (5, 4)
  | .eucm => (6, 0)
  | .ds => (6, 0)

theorem length_of_check {model : String} {v : List Num} (h : checkIntrinsics model v = .ok ()) :
    (model = "pinhole" → v.length = 4) ∧ (model = "omni" → v.length = 5) ∧ (model = "eucm" → v.length = 6) ∧
      (model = "ds" → v.length = 6) := by
  rw [C127_intrinsics] at h
  obtain ⟨front, fu, fv, pu, pv, rfl, -, -, -, -, h5⟩ := h
  rcases h5 with ⟨rfl, rfl⟩ | ⟨rfl, xi, rfl, hx⟩ | ⟨rfl, xi, al, rfl, ha1, ha2⟩ | ⟨rfl, al, be, rfl, ha1, ha2, hb⟩ <;> simp

theorem length_of_dist {model : String} {v : List Num} (h : checkDistortion model v = .ok ()) :
    distParams model = some v.length := by
  unfold checkDistortion at h
  cases hd : distParams model with
  | none => rw [hd] at h; cases h
  | some n =>
    rw [hd] at h
    simp only [] at h
    by_cases hl : v.length = n
    · rw [hl]
    · rw [if_pos hl] at h; cases h

/-- A camera that was saved is read as the same camera. -/
theorem saveCam_spec {cam : CalCam} {d : CamDict M} (h : saveCam cam = .ok d) :
    fromParameters d = .ok (some ⟨cam.cls, cam.intrinsics, cam.distortion, (cam.width, cam.height)⟩) ∧ d.T_cn_cnm1 = none ∧
      d.cam_overlaps = none := by
  unfold saveCam at h
  cases hm : cameraModel cam.cls with
  | none => rw [hm] at h; cases h
  | some m =>
    cases hdm : distortionModel cam.cls with
    | none => rw [hm, hdm] at h; cases h
    | some dm =>
      rw [hm, hdm] at h
      simp only [setIntrinsics, setResolution, setDistortion] at h
      rw [bind_ok] at h
      obtain ⟨d1, h1, h⟩ := h
      rw [bind_ok] at h1
      obtain ⟨_, hc, h1⟩ := h1
      rw [bind_ok] at h
      obtain ⟨d2, h2, h⟩ := h
      rw [bind_ok] at h2
      obtain ⟨_, -, h2⟩ := h2
      rw [bind_ok] at h
      obtain ⟨_, hdc, h⟩ := h
      have e1 := Except.ok.inj h1
      have e2 := Except.ok.inj h2
      have e3 := Except.ok.inj h
      subst e1 e2 e3
      have hi : (cam.intrinsics.map Num.flt).map (fun x => Num.flt x.val) = cam.intrinsics.map Num.flt := by
        rw [List.map_map]; rfl
      have hd : (cam.distortion.map Num.flt).map (fun x => Num.flt x.val) = cam.distortion.map Num.flt := by
        rw [List.map_map]; rfl
      refine ⟨?_, rfl, rfl⟩
      have hli := length_of_check hc
      have hld := length_of_dist hdc
      simp only [List.length_map] at hli hld
      unfold fromParameters getIntrinsics getDistortion getResolution field
      simp only [hi, hd, hc, hdc, ok_bind, checkResolution, Num.isInt, Bool.and_self, if_true]
      show aslamCamera m (cam.intrinsics.map Num.flt) dm (cam.distortion.map Num.flt) [.int cam.width, .int cam.height] = _
      have hlen : cam.intrinsics.length = (dims cam.cls).1 ∧ cam.distortion.length = (dims cam.cls).2 := by
        cases hcls : cam.cls <;> rw [hcls] at hm hdm <;> simp only [cameraModel, distortionModel, Option.some.injEq, reduceCtorEq] at hm hdm <;>
          subst hm hdm <;> simp [distParams] at hli hld <;> simp [dims, hli, ← hld]
      obtain ⟨hl1, hl2⟩ := hlen
      cases hcls : cam.cls <;> rw [hcls] at hm hdm hl1 hl2 <;>
        simp only [cameraModel, distortionModel, Option.some.injEq, reduceCtorEq] at hm hdm <;>
        subst hm hdm <;> simp only [dims] at hl1 hl2 <;> simp [aslamCamera] <;> exact build_ok hl1 hl2

/-! ## The chain -/

/-- The entries of the chain are those of these dictionaries. -/
structure Holds (c : Chain M) (ds : List (CamDict M)) : Prop where
  len : c.length = ds.length
  wf : FMap.WF c
  find : ∀ i, FMap.find c i = ds[i]?

theorem holds_nil : Holds ([] : Chain M) [] := ⟨rfl, FMap.wf_nil, fun i => by simp⟩

theorem Holds.add {c : Chain M} {ds : List (CamDict M)} (h : Holds c ds) (d : CamDict M) :
    Holds (addCameraAtEnd c d) (ds ++ [d]) := by
  have hn : FMap.find c c.length = none := by rw [h.find, h.len]; simp
  unfold addCameraAtEnd
  rw [FMap.set_of_none hn]
  refine ⟨by simp [h.len], ?_, ?_⟩
  · rw [← FMap.set_of_none hn]; exact FMap.wf_set h.wf _ _
  · intro i
    rw [FMap.find_append, h.find, FMap.find_cons, FMap.find_nil, h.len]
    rcases Nat.lt_trichotomy i ds.length with hi | hi | hi
    · rw [List.getElem?_append_left hi, List.getElem?_eq_getElem hi]; rfl
    · subst hi; simp
    · rw [List.getElem?_eq_none (by omega), List.getElem?_eq_none (by simp; omega), if_neg (by simp only []; omega)]; rfl

theorem Holds.modify {c : Chain M} {ds : List (CamDict M)} (h : Holds c ds) {n : Nat} (hn : n < ds.length)
    (f : CamDict M → CamDict M) : ∃ c', modify c n f = .ok c' ∧ Holds c' (ds.set n (f ds[n])) := by
  unfold Config.modify
  rw [h.find, List.getElem?_eq_getElem hn]
  have hfind : ∀ i, FMap.find (FMap.set c n (f ds[n])) i = (ds.set n (f ds[n]))[i]? := by
    intro i
    unfold FMap.set
    rw [FMap.find_append, FMap.find_erase, FMap.find_cons, FMap.find_nil, h.find]
    by_cases hi : i = n
    · subst hi
      rw [List.getElem?_set_self hn]; simp
    · rw [if_neg hi, if_neg (Ne.symm hi), List.getElem?_set_ne (Ne.symm hi)]; simp
  refine ⟨_, rfl, ?_, FMap.wf_set h.wf _ _, hfind⟩
  rw [List.length_set]
  have := FMap.length_eq_of_mem (m := FMap.set c n (f ds[n])) (l := List.range ds.length) (FMap.wf_set h.wf _ _) List.nodup_range (by
    intro k
    rw [hfind]
    simp only [List.mem_range]
    constructor
    · intro hk
      exact ⟨_, List.getElem?_eq_getElem (by simpa using hk)⟩
    · rintro ⟨v, hv⟩
      have := (List.getElem?_eq_some_iff.1 hv).1
      simpa using this)
  simpa using this

/-- The first part of `saveChain`. -/
theorem add_all {cams : List CalCam} {c c' : Chain M} {ds : List (CamDict M)} (h0 : Holds c ds)
    (h : cams.foldlM (fun (c : Chain M) cam => do
      let d ← saveCam cam
      return addCameraAtEnd c d) c = .ok c') :
    ∃ es : List (CamDict M), Holds c' (ds ++ es) ∧ es.length = cams.length ∧
      ∀ i (hi : i < es.length) (hc : i < cams.length), saveCam cams[i] = .ok es[i] := by
  induction cams generalizing c ds with
  | nil =>
    cases h
    exact ⟨[], by simpa using h0, rfl, fun i hi => absurd hi (by simp)⟩
  | cons cam cams ih =>
    rw [List.foldlM_cons, bind_ok] at h
    obtain ⟨c1, h1, h⟩ := h
    rw [bind_ok] at h1
    obtain ⟨d, hd, h1⟩ := h1
    cases h1
    obtain ⟨es, he, hl, hs⟩ := ih (h0.add d) h
    refine ⟨d :: es, by simpa using he, by simp [hl], ?_⟩
    intro i hi hc
    cases i with
    | zero => simpa using hd
    | succ i => simpa using hs i (by simpa using hi) (by simpa using hc)

/-- The fields of a camera that the rest of `saveChain` does not touch. -/
def SameCam (d d' : CamDict M) : Prop := fromParameters d' = fromParameters d

theorem fromParameters_congr {d d' : CamDict M} (h1 : d'.camera_model = d.camera_model) (h2 : d'.intrinsics = d.intrinsics)
    (h3 : d'.distortion_model = d.distortion_model) (h4 : d'.distortion_coeffs = d.distortion_coeffs)
    (h5 : d'.resolution = d.resolution) : fromParameters d' = fromParameters d := by
  unfold fromParameters getIntrinsics getDistortion getResolution
  rw [h1, h2, h3, h4, h5]

/-- The second part. -/
theorem overlaps_all {overlaps : Nat → List Nat} : ∀ (l : List Nat) {c c' : Chain M} {ds : List (CamDict M)}, Holds c ds →
    l.foldlM (fun c i => setCamOverlaps c i (overlaps i)) c = .ok c' →
    ∃ es : List (CamDict M), Holds c' es ∧ es.length = ds.length ∧ ∀ i (h1 : i < es.length) (h2 : i < ds.length),
      SameCam ds[i] es[i] ∧ (i ∈ l → es[i].cam_overlaps = some (overlaps i)) ∧
      (i ∉ l → es[i].cam_overlaps = ds[i].cam_overlaps) := by
  intro l
  induction l with
  | nil =>
    intro c c' ds h0 h
    cases h
    exact ⟨ds, h0, rfl, fun i _ _ => ⟨rfl, by simp, fun _ => rfl⟩⟩
  | cons n l ih =>
    intro c c' ds h0 h
    rw [List.foldlM_cons, bind_ok] at h
    obtain ⟨c1, h1, h⟩ := h
    unfold setCamOverlaps at h1
    by_cases hn : n ≥ c.length
    · rw [if_pos hn] at h1; cases h1
    rw [if_neg hn] at h1
    by_cases ha : (overlaps n).any (fun i => decide (i ≥ c.length)) = true
    · rw [if_pos ha] at h1; cases h1
    rw [if_neg ha] at h1
    have hn' : n < ds.length := by rw [← h0.len]; omega
    obtain ⟨c2, hc2, hh⟩ := h0.modify hn' fun d => { d with cam_overlaps := some (overlaps n) }
    rw [hc2] at h1
    cases h1
    obtain ⟨es, he, hl, hs⟩ := ih hh h
    refine ⟨es, he, by simpa using hl, ?_⟩
    intro i h1 h2
    obtain ⟨p1, p2, p3⟩ := hs i h1 (by simpa using h2)
    by_cases hi : n = i
    · subst hi
      rw [List.getElem_set_self] at p1 p3
      refine ⟨p1.trans (fromParameters_congr rfl rfl rfl rfl rfl), fun _ => ?_, fun hc => absurd (by simp) hc⟩
      by_cases hm : n ∈ l
      · exact p2 hm
      · exact p3 hm
    · rw [List.getElem_set_ne hi] at p1 p3
      refine ⟨p1, fun hm => p2 ((List.mem_cons.1 hm).resolve_left (Ne.symm hi)), fun hm => p3 fun hc => hm (by simp [hc])⟩

/-- The third part. -/
theorem baselines_all {baselines : List M} : ∀ (l : List Nat) {c c' : Chain M} {ds : List (CamDict M)}, Holds c ds →
    l.foldlM (fun (c : Chain M) b =>
      match baselines[b]? with
      | none => (Except.error Exn.index : Py (Chain M))
      | some T => setExtrinsics c (b + 1) T) c = .ok c' →
    ∃ es : List (CamDict M), Holds c' es ∧ es.length = ds.length ∧ ∀ i (h1 : i < es.length) (h2 : i < ds.length),
      SameCam ds[i] es[i] ∧ es[i].cam_overlaps = ds[i].cam_overlaps ∧
      (∀ b, i = b + 1 → b ∈ l → es[i].T_cn_cnm1 = baselines[b]?) ∧
      ((∀ b ∈ l, i ≠ b + 1) → es[i].T_cn_cnm1 = ds[i].T_cn_cnm1) := by
  intro l
  induction l with
  | nil =>
    intro c c' ds h0 h
    cases h
    exact ⟨ds, h0, rfl, fun i _ _ => ⟨rfl, rfl, by simp, fun _ => rfl⟩⟩
  | cons n l ih =>
    intro c c' ds h0 h
    rw [List.foldlM_cons, bind_ok] at h
    obtain ⟨c1, h1, h⟩ := h
    cases hT : baselines[n]? with
    | none => rw [hT] at h1; cases h1
    | some T =>
      rw [hT] at h1
      simp only [setExtrinsics] at h1
      rw [if_neg (by omega)] at h1
      by_cases hn : n + 1 < ds.length
      · obtain ⟨c2, hc2, hh⟩ := h0.modify hn fun d => { d with T_cn_cnm1 := some T }
        rw [hc2] at h1
        cases h1
        obtain ⟨es, he, hl, hs⟩ := ih hh h
        refine ⟨es, he, by simpa using hl, ?_⟩
        intro i h1 h2
        obtain ⟨p1, p2, p3, p4⟩ := hs i h1 (by simpa using h2)
        by_cases hi : n + 1 = i
        · subst hi
          rw [List.getElem_set_self] at p1 p2 p4
          refine ⟨p1.trans (fromParameters_congr rfl rfl rfl rfl rfl), p2, ?_, fun hc => absurd rfl (hc n (by simp))⟩
          intro b hb _
          have : b = n := by omega
          subst this
          by_cases hm : b ∈ l
          · exact p3 b rfl hm
          · rw [p4 fun b' hb' hc => hm (by rw [show b = b' by omega]; exact hb'), hT]
        · rw [List.getElem_set_ne hi] at p1 p2 p4
          refine ⟨p1, p2, ?_, fun hc => p4 fun b hb => hc b (by simp [hb])⟩
          intro b hb hm
          exact p3 b hb ((List.mem_cons.1 hm).resolve_left (by omega))
      · unfold modify at h1
        rw [h0.find, List.getElem?_eq_none (by omega)] at h1
        cases h1

/-- **C127** What the camera calibration writes is what the next program reads: for every list of cameras whose results are written,
camera `i` of the file has the geometry of camera `i` of the calibration, of the same class and with the same parameters, distortion
and size; and the extrinsics of camera `i + 1` are baseline `i`. -/
theorem C127_roundtrip {cams : List CalCam} {overlaps : Nat → List Nat} {baselines : List M} {c : Chain M}
    (h : saveChain cams overlaps baselines = .ok c) : c.length = cams.length ∧
    (∀ i (hi : i < cams.length), ∃ d, getCameraParameters c i = .ok d ∧ fromParameters d =
      .ok (some ⟨cams[i].cls, cams[i].intrinsics, cams[i].distortion, (cams[i].width, cams[i].height)⟩) ∧
      d.cam_overlaps = some (overlaps i)) ∧
    (∀ b (hb : b < baselines.length), b + 1 < cams.length → getExtrinsics c (b + 1) = .ok baselines[b]) ∧
    cams.length ≤ c.length ∧ ∀ n, cams.length ≤ n → getCameraParameters c n = .error .runtime := by
  unfold saveChain at h
  rw [bind_ok] at h
  obtain ⟨c1, h1, h⟩ := h
  rw [bind_ok] at h
  obtain ⟨c2, h2, h⟩ := h
  obtain ⟨ds, k1, l1, s1⟩ := add_all holds_nil h1
  rw [List.nil_append] at k1
  obtain ⟨es, k2, l2, s2⟩ := overlaps_all _ k1 h2
  obtain ⟨fs, k3, l3, s3⟩ := baselines_all _ k2 h
  have hlen : c.length = cams.length := by rw [k3.len, l3, l2, l1]
  refine ⟨hlen, ?_, ?_, hlen.ge, ?_⟩
  · intro i hi
    obtain ⟨p1, p2, -, -⟩ := s3 i (by omega) (by omega)
    obtain ⟨q1, q2, -⟩ := s2 i (by omega) (by omega)
    obtain ⟨r1, -⟩ := saveCam_spec (s1 i (by omega) hi)
    refine ⟨fs[i], ?_, p1.trans (q1.trans r1), p2.trans (q2 (List.mem_range.2 hi))⟩
    unfold getCameraParameters
    rw [if_neg (by omega), k3.find, List.getElem?_eq_getElem (by omega)]
    rfl
  · intro b hb hb1
    obtain ⟨-, -, p3, -⟩ := s3 (b + 1) (by omega) (by omega)
    unfold getExtrinsics
    rw [if_neg (by omega), if_neg (by omega), k3.find, List.getElem?_eq_getElem (by omega)]
    simp only []
    rw [p3 b rfl (List.mem_range.2 hb), List.getElem?_eq_getElem hb]
    rfl
  · intro n hn
    unfold getCameraParameters
    rw [if_pos (by omega)]

/-- A camera whose parameters are in range is saved. -/
theorem saveCam_ok {cam : CalCam} {m dm : String} (hm : cameraModel cam.cls = some m) (hdm : distortionModel cam.cls = some dm)
    (hi : ValidIntrinsics m (cam.intrinsics.map .flt)) (hd : distParams dm = some cam.distortion.length) :
    ∃ d : CamDict M, saveCam cam = .ok d := by
  unfold saveCam
  rw [hm, hdm]
  simp only [setIntrinsics, setResolution, setDistortion, (C127_intrinsics _ _).2 hi, ok_bind, checkDistortion, hd, List.length_map,
    checkResolution, Num.isInt, Bool.and_self, if_true, ne_eq, not_true_eq_false, if_false]
  exact ⟨_, rfl⟩

/-- **C127, in part** The file is written if the parameters of all the cameras are in the range that the reader accepts. -/
theorem C127_written_partial {cams : List CalCam} {overlaps : Nat → List Nat} {baselines : List M}
    (hcams : ∀ cam ∈ cams, ∃ m dm, cameraModel cam.cls = some m ∧ distortionModel cam.cls = some dm ∧
      ValidIntrinsics m (cam.intrinsics.map .flt) ∧ distParams dm = some cam.distortion.length)
    (hov : ∀ i < cams.length, ∀ j ∈ overlaps i, j < cams.length) (hb : baselines.length + 1 = cams.length) :
    ∃ c, saveChain cams overlaps baselines = .ok c := by
  have p1 : ∀ (l : List CalCam) (c : Chain M) (ds : List (CamDict M)), Holds c ds → (∀ cam ∈ l, cam ∈ cams) →
      ∃ c' es, l.foldlM (fun (c : Chain M) cam => do
        let d ← saveCam cam
        return addCameraAtEnd c d) c = .ok c' ∧ Holds c' es ∧ es.length = ds.length + l.length := by
    intro l
    induction l with
    | nil => intro c ds h _; exact ⟨c, ds, rfl, h, rfl⟩
    | cons cam l ih =>
      intro c ds h hl
      obtain ⟨m, dm, a1, a2, a3, a4⟩ := hcams cam (hl cam (by simp))
      obtain ⟨d, hd⟩ := saveCam_ok (M := M) a1 a2 a3 a4
      obtain ⟨c', es, e1, e2, e3⟩ := ih _ _ (h.add d) fun x hx => hl x (by simp [hx])
      refine ⟨c', es, ?_, e2, by simp at e3; simp; omega⟩
      rw [List.foldlM_cons, hd]
      exact e1
  have p2 : ∀ (l : List Nat) (c : Chain M) (ds : List (CamDict M)), Holds c ds → ds.length = cams.length → (∀ i ∈ l, i < cams.length) →
      ∃ c' es, l.foldlM (fun c i => setCamOverlaps c i (overlaps i)) c = .ok c' ∧ Holds c' es ∧ es.length = cams.length := by
    intro l
    induction l with
    | nil => intro c ds h hl _; exact ⟨c, ds, rfl, h, hl⟩
    | cons n l ih =>
      intro c ds h hl hi
      have hn := hi n (by simp)
      obtain ⟨c1, h1, h2⟩ := h.modify (n := n) (by omega) fun d => { d with cam_overlaps := some (overlaps n) }
      obtain ⟨c', es, e1, e2, e3⟩ := ih c1 _ h2 (by simpa using hl) fun i hi' => hi i (by simp [hi'])
      refine ⟨c', es, ?_, e2, e3⟩
      have hs : setCamOverlaps c n (overlaps n) = .ok c1 := by
        unfold setCamOverlaps
        rw [if_neg (by rw [h.len]; omega), if_neg, h1]
        rw [List.any_eq_true]
        rintro ⟨j, hj, hc⟩
        have := hov n hn j hj
        rw [decide_eq_true_eq, h.len] at hc
        omega
      rw [List.foldlM_cons, hs]
      exact e1
  have p3 : ∀ (l : List Nat) (c : Chain M) (ds : List (CamDict M)), Holds c ds → ds.length = cams.length →
      (∀ b ∈ l, b < baselines.length) → ∃ c', l.foldlM (fun (c : Chain M) b =>
        match baselines[b]? with
        | none => (Except.error Exn.index : Py (Chain M))
        | some T => setExtrinsics c (b + 1) T) c = .ok c' := by
    intro l
    induction l with
    | nil => intro c ds _ _ _; exact ⟨c, rfl⟩
    | cons n l ih =>
      intro c ds h hl hi
      have hn := hi n (by simp)
      obtain ⟨c1, h1, h2⟩ := h.modify (n := n + 1) (by omega) fun d => { d with T_cn_cnm1 := some baselines[n] }
      obtain ⟨c', e1⟩ := ih c1 _ h2 (by simpa using hl) fun i hi' => hi i (by simp [hi'])
      refine ⟨c', ?_⟩
      rw [List.foldlM_cons, List.getElem?_eq_getElem hn]
      simp only [setExtrinsics]
      rw [if_neg (by omega), h1]
      exact e1
  obtain ⟨c1, ds, e1, k1, l1⟩ := p1 cams [] [] holds_nil fun _ h => h
  obtain ⟨c2, es, e2, k2, l2⟩ := p2 (List.range cams.length) c1 ds k1 (by simpa using l1) fun i hi => List.mem_range.1 hi
  obtain ⟨c3, e3⟩ := p3 (List.range baselines.length) c2 es k2 l2 fun i hi => List.mem_range.1 hi
  refine ⟨c3, ?_⟩
  unfold saveChain
  rw [e1, ok_bind, e2, ok_bind]
  exact e3

/-- **C127** The results of a calibration can be out of this range, and then nothing is written: a principal point outside of the
image is a `RuntimeError` in the program that has just finished the calibration. -/
theorem C127_written_counterexample :
    saveChain (M := Nat) [⟨.distortedPinhole, [400, 400, -1, 200], [0, 0, 0, 0], 640, 480⟩] (fun _ => []) [] = .error .runtime := by
  decide +kernel

/-- **C127** A pinhole camera without distortion is accepted, and then it is a camera that has no geometry. -/
theorem C127_pinhole_counterexample : ∃ d : CamDict Nat, setIntrinsics {} "pinhole" [.flt 400, .flt 400, .flt 320, .flt 240] >>=
    (fun d => setResolution d [.int 640, .int 480]) >>= (fun d => setDistortion d "none" []) = .ok d ∧ fromParameters d = .ok none := by
  exact ⟨_, rfl, by decide +kernel⟩

/-- **C127, in part** Every other combination of parameters that the reader accepts is a camera with a geometry that has these
parameters, or a `RuntimeError`. -/
theorem C127_camera_partial {d : CamDict M} {m dm : String} {iv dv res : List Num} (h1 : getIntrinsics d = .ok (m, iv))
    (h2 : getDistortion d = .ok (dm, dv)) (h3 : getResolution d = .ok res) (hne : ¬ (m = "pinhole" ∧ dm = "none")) :
    fromParameters d = .error .runtime ∨ ∃ g, fromParameters d = .ok (some g) ∧ g.intrinsics = iv.map Num.val ∧
      g.distortion = dv.map Num.val := by
  have hp : ∀ (l : List Num) (n : Nat), l.length = n → places l (List.range n) = .ok (l.map Num.val) := by
    intro l n h
    have hgen : ∀ k ≤ l.length, places l (List.range k) = .ok ((l.take k).map Num.val) := by
      intro k
      induction k with
      | zero => intro _; rfl
      | succ k ih =>
        intro hk
        unfold places at ih ⊢
        rw [List.range_succ, List.mapM_append, ih (by omega), ok_bind]
        simp only [List.mapM_cons, List.mapM_nil, List.getElem?_eq_getElem (show k < l.length by omega), ok_bind]
        rw [List.take_add_one, List.getElem?_eq_getElem (show k < l.length by omega)]
        simp only [Option.toList_some, List.map_append, List.map_cons, List.map_nil]
        rfl
    have := hgen n (by omega)
    rwa [List.take_of_length_le (by omega)] at this
  have hc : checkIntrinsics m iv = .ok () := by
    unfold getIntrinsics at h1
    simp only [bind_ok] at h1
    obtain ⟨a, -, b, -, u, hu, h⟩ := h1
    cases h
    exact hu
  have hd : checkDistortion dm dv = .ok () := by
    unfold getDistortion at h2
    simp only [bind_ok] at h2
    obtain ⟨a, -, b, -, u, hu, h⟩ := h2
    cases h
    exact hu
  have hr : ∃ w h, res = [w, h] := by
    unfold getResolution at h3
    simp only [bind_ok] at h3
    obtain ⟨a, -, u, hu, h⟩ := h3
    cases h
    unfold checkResolution at hu
    split at hu
    · exact ⟨_, _, rfl⟩
    · cases hu
  obtain ⟨w, hh, rfl⟩ := hr
  have hli := length_of_check hc
  have hld := length_of_dist hd
  have hb : ∀ cls ni nd, iv.length = ni → dv.length = nd → ∃ g, build cls iv dv ni nd [w, hh] = .ok (some g) ∧
      g.intrinsics = iv.map Num.val ∧ g.distortion = dv.map Num.val := by
    intro cls ni nd hi hd'
    unfold build
    rw [hp iv ni hi, hp dv nd hd']
    exact ⟨_, rfl, rfl, rfl⟩
  have hfp : fromParameters d = aslamCamera m iv dm dv [w, hh] := by
    unfold fromParameters
    rw [h1, ok_bind]
    simp only []
    rw [h2, ok_bind]
    simp only []
    rw [h3, ok_bind]
  rw [hfp]
  have hmodels : m = "pinhole" ∨ m = "omni" ∨ m = "ds" ∨ m = "eucm" := by
    rw [C127_intrinsics] at hc
    obtain ⟨front, fu, fv, pu, pv, -, -, -, -, -, h5⟩ := hc
    tauto
  have hdists : (dm = "radtan" ∧ dv.length = 4) ∨ (dm = "equidistant" ∧ dv.length = 4) ∨ (dm = "fov" ∧ dv.length = 1) ∨
      (dm = "none" ∧ dv.length = 0) := by
    unfold distParams at hld
    by_cases q1 : dm = "radtan"
    · rw [if_pos q1] at hld; exact .inl ⟨q1, (Option.some.inj hld).symm⟩
    rw [if_neg q1] at hld
    by_cases q2 : dm = "equidistant"
    · rw [if_pos q2] at hld; exact .inr (.inl ⟨q2, (Option.some.inj hld).symm⟩)
    rw [if_neg q2] at hld
    by_cases q3 : dm = "fov"
    · rw [if_pos q3] at hld; exact .inr (.inr (.inl ⟨q3, (Option.some.inj hld).symm⟩))
    rw [if_neg q3] at hld
    by_cases q4 : dm = "none"
    · rw [if_pos q4] at hld; exact .inr (.inr (.inr ⟨q4, (Option.some.inj hld).symm⟩))
    rw [if_neg q4] at hld
    cases hld
  rcases hmodels with rfl | rfl | rfl | rfl <;> rcases hdists with ⟨rfl, hl⟩ | ⟨rfl, hl⟩ | ⟨rfl, hl⟩ | ⟨rfl, hl⟩ <;>
    simp [aslamCamera] at hli ⊢ <;> first
      | exact Or.inr (hb _ _ _ hli hl)
      | exact hb _ _ _ hli hl
      | exact absurd ⟨rfl, rfl⟩ hne

/-- **C127** The parameters of a target are accepted if and only if the numbers are whole and at least three, and the sizes are
positive floats. -/
theorem C127_target (t : Target) : getTargetParams t = .ok t ↔
    (∃ z : ℤ, t.rows = .int z ∧ 3 ≤ z) ∧ (∃ z : ℤ, t.cols = .int z ∧ 3 ≤ z) ∧ (∃ q : ℚ, t.a = .flt q ∧ 0 < q) ∧
      ∃ q : ℚ, t.b = .flt q ∧ 0 < q := by
  obtain ⟨r, c, a, b⟩ := t
  have hint : ∀ x : Num, (!x.isInt || decide (x.val < 3)) = false ↔ ∃ z : ℤ, x = .int z ∧ 3 ≤ z := by
    intro x
    rw [Bool.or_eq_false_iff, decide_eq_false_iff_not]
    cases x with
    | flt q => simp [Num.isInt]
    | int z =>
      simp only [Num.isInt, Num.val, Bool.not_true, true_and, not_lt, Num.int.injEq]
      constructor
      · intro h; exact ⟨z, rfl, by exact_mod_cast h⟩
      · rintro ⟨z', rfl, h⟩; exact_mod_cast h
  have hflt : ∀ x : Num, (!x.isFloat || decide (x.val ≤ 0)) = false ↔ ∃ q : ℚ, x = .flt q ∧ 0 < q := by
    intro x
    rw [Bool.or_eq_false_iff, decide_eq_false_iff_not]
    cases x with
    | int z => simp [Num.isFloat]
    | flt q => simp [Num.isFloat, Num.val]
  unfold getTargetParams
  simp only []
  rw [← hint, ← hint, ← hflt, ← hflt]
  cases (!r.isInt || decide (r.val < 3)) <;> cases (!c.isInt || decide (c.val < 3)) <;>
    cases (!a.isFloat || decide (a.val ≤ 0)) <;> cases (!b.isFloat || decide (b.val ≤ 0)) <;> simp

/-- **C127** But those that are not are never reported as wrong parameters: the error is a `NameError` of the reader itself. -/
theorem C127_target_counterexample (t : Target) (h : getTargetParams t ≠ .ok t) : getTargetParams t = .error .name := by
  unfold getTargetParams at h ⊢
  split_ifs at h ⊢ <;> simp_all

/-- **C127** If a unit was added with a name, the next one without can take this name, and the first is lost. -/
theorem C127_imu_counterexample : (addImu (addImu ⟨[], 0⟩ (7 : Nat) (some "imu1")) 8 none).data = [("imu1", 8)] := by
  decide +kernel

/-- The hypotheses of `C127_roundtrip`, `C127_written_partial`: two cameras with a baseline. -/
example : ∃ c, saveChain (M := Nat) [⟨.distortedPinhole, [400, 401, 320, 240], [1, 2, 3, 4], 640, 480⟩,
    ⟨.ds, [-1/5, 1/2, 400, 401, 320, 240], [], 640, 480⟩] (fun i => [1 - i]) [7] = .ok c ∧
    getExtrinsics c 1 = .ok 7 :=
  bind_ok.1 (by decide +kernel)

/-- The hypothesis of `C127_set_get`. -/
example : ∃ d, setIntrinsics (M := Nat) {} "omni" [.int 1, .flt 400, .flt 401, .flt 320, .flt 240] = .ok d := by
  exact ⟨_, rfl⟩

/-- The hypothesis of `C127_target_counterexample`. -/
example : getTargetParams ⟨.int 2, .int 6, .flt 1, .flt 1⟩ ≠ .ok ⟨.int 2, .int 6, .flt 1, .flt 1⟩ := by decide +kernel

end Kalibr.App.Config
