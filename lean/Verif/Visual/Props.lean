import Verif.Visual.Model
import Verif.Validator.Props

/-!
# C161, C162, C163: the command for inertial sensors, the drawing of a calibration, the measure of focus
-/

namespace Kalibr.Visual

open Kin Matrix

/-! ## C161 -/

theorem makeImus_ok : ∀ (l : List (String × String)) (imus : List Imu), (∀ p ∈ l, imuClass p.2 ≠ none) →
    ∃ out, makeImus l imus = .ok (imus ++ out) ∧ out.map Imu.yaml = l.map Prod.fst ∧ out.map (fun i => some i.cls) = l.map (fun p => imuClass p.2) ∧
      ∀ k (h : k < out.length), out[k].isReference = (imus.isEmpty && decide (k = 0)) := by
  intro l
  induction l with
  | nil => intro imus _; exact ⟨[], by simp [makeImus], rfl, rfl, by simp⟩
  | cons p l ih =>
    obtain ⟨y, m⟩ := p
    intro imus h
    obtain ⟨c, hc⟩ := Option.ne_none_iff_exists'.1 (h (y, m) (by simp))
    obtain ⟨out, h1, h2, h3, h4⟩ := ih (imus ++ [⟨y, c, imus.isEmpty⟩]) (fun p hp => h p (by simp [hp]))
    refine ⟨⟨y, c, imus.isEmpty⟩ :: out, ?_, by simp [h2], by simpa [h3] using hc.symm, ?_⟩
    · rw [makeImus]
      simp only [] at hc
      rw [hc]
      simp only
      rw [h1, List.append_assoc]
      rfl
    · intro k hk
      cases k with
      | zero => simp
      | succ k =>
        have := h4 k (by simpa using hk)
        have hf : (imus ++ [(⟨y, c, imus.isEmpty⟩ : Imu)]).isEmpty = false := by simp
        rw [hf] at this
        simpa using this

theorem makeImus_bad : ∀ (l : List (String × String)) (imus : List Imu), (∃ p ∈ l, imuClass p.2 = none) → makeImus l imus = .exit 2 := by
  intro l
  induction l with
  | nil => rintro imus ⟨p, hp, -⟩; simp at hp
  | cons p l ih =>
    obtain ⟨y, m⟩ := p
    rintro imus ⟨p, hp, hn⟩
    rw [makeImus]
    cases hm : imuClass m with
    | none => rfl
    | some c =>
      refine ih _ ⟨p, ?_, hn⟩
      rcases List.mem_cons.1 hp with rfl | hp
      · simp only at hn; rw [hn] at hm; cases hm
      · exact hp

/-- C161: with as many models as sensors, all of them known, every sensor is made with its configuration and its model, in the order given, and the
first and only the first is the reference.  With a model that is not known, or with another number of models, the command stops with an error. -/
theorem C161_sensors_partial (yamls models : List String) (hm : models ≠ []) :
    (yamls.length = models.length → (∀ m ∈ models, imuClass m ≠ none) → ∃ out, imusOf yamls (some models) = .ok out ∧
      out.map Imu.yaml = yamls ∧ out.map (fun i => some i.cls) = models.map imuClass ∧ (∀ k (hk : k < out.length), out[k].isReference = decide (k = 0))) ∧
    (yamls.length = models.length → (∃ m ∈ models, imuClass m = none) → imusOf yamls (some models) = .exit 2) ∧
    (yamls.length ≠ models.length → imusOf yamls (some models) = .exit 2) := by
  have e : yamls.length = models.length → imusOf yamls (some models) = makeImus (yamls.zip models) [] := by
    intro hl
    unfold imusOf
    simp only
    rw [if_neg (fun hc => hm hc.2), if_neg (not_not.2 hl)]
  refine ⟨fun hl hk => ?_, fun hl hk => ?_, fun hl => ?_⟩
  · obtain ⟨out, h1, h2, h3, h4⟩ := makeImus_ok (yamls.zip models) [] (fun p hp => hk p.2 (List.of_mem_zip hp).2)
    refine ⟨out, by rw [e hl, h1]; rfl, ?_, ?_, fun k hk => by simpa using h4 k hk⟩
    · rw [h2, List.map_fst_zip hl.le]
    · rw [h3]
      have : (yamls.zip models).map (fun p => imuClass p.2) = ((yamls.zip models).map Prod.snd).map imuClass := by rw [List.map_map]; rfl
      rw [this, List.map_snd_zip hl.ge]
  · rw [e hl]
    obtain ⟨m, hmem, hnone⟩ := hk
    obtain ⟨i, hi, rfl⟩ := List.mem_iff_getElem.1 hmem
    have hi' : i < (yamls.zip models).length := by rw [List.length_zip, hl]; simpa using hi
    exact makeImus_bad _ _ ⟨(yamls.zip models)[i], List.getElem_mem hi', by rw [List.getElem_zip]; exact hnone⟩
  · unfold imusOf
    simp only
    rw [if_neg (fun hc => hm hc.2), if_pos hl]

/-- Beside C161: two sensors. -/
example : imusOf ["a.yaml", "b.yaml"] (some ["scale-misalignment", "calibrated"]) =
    .ok [⟨"a.yaml", .scaleMisalignment, true⟩, ⟨"b.yaml", .calibrated, false⟩] := by
  simp [imusOf, makeImus, imuClass]

/-- C161: one sensor without a model is calibrated as before there were models. -/
theorem C161_one_sensor (yaml : String) : imusOf [yaml] none = .ok [⟨yaml, .calibrated, true⟩] := rfl

/-- C161 is false of several sensors without models: there is no message, the command crashes. -/
theorem C161_no_models_counterexample (yamls : List String) (h : 2 ≤ yamls.length) : imusOf yamls none = .crash := by
  unfold imusOf
  simp only
  rw [if_neg (by omega)]

theorem dropBag_subset : ∀ (s : List Char), ∀ c ∈ dropBag s, c ∈ s := by
  intro s
  induction s with
  | nil => simp [dropBag]
  | cons a s ih =>
    intro c hc
    rw [dropBag] at hc
    split at hc
    · exact List.mem_cons_of_mem _ (List.mem_of_mem_drop hc)
    · rcases List.mem_cons.1 hc with rfl | hc
      · simp
      · exact List.mem_cons_of_mem _ (ih c hc)

/-- C161: whatever the path of the data, the four results are written to four different files, and no name contains a separator of folders or another
character that file systems refuse. -/
theorem C161_files (bag : List Char) : (outputs bag).Nodup ∧ (outputs bag).length = 4 ∧ ∀ f ∈ outputs bag, ∀ c ∈ f, c ∉ forbidden := by
  have hb : ∀ c ∈ bagtag bag, c ∉ forbidden := by
    intro c hc
    have := dropBag_subset _ c hc
    have := (List.mem_filter.1 this).2
    simpa using this
  refine ⟨?_, rfl, ?_⟩
  · have e1 : "camchain-imucam-".toList = 'c' :: 'a' :: "mchain-imucam-".toList := rfl
    have e2 : "imu-".toList = 'i' :: "mu-".toList := rfl
    have e3 : "results-imucam-".toList = 'r' :: 'e' :: 's' :: "ults-imucam-".toList := rfl
    have e4 : "report-imucam-".toList = 'r' :: 'e' :: 'p' :: "ort-imucam-".toList := rfl
    unfold outputs
    rw [e1, e2, e3, e4]
    simp
  · intro f hf c hc
    unfold outputs at hf
    simp only [List.mem_cons, List.not_mem_nil, or_false] at hf
    have lit : ∀ s t : String, (∀ c ∈ s.toList, c ∉ forbidden) → (∀ c ∈ t.toList, c ∉ forbidden) →
        ∀ c ∈ s.toList ++ bagtag bag ++ t.toList, c ∉ forbidden := by
      intro s t hs ht c hc
      rcases List.mem_append.1 hc with hc | hc
      · rcases List.mem_append.1 hc with hc | hc
        · exact hs c hc
        · exact hb c hc
      · exact ht c hc
    rcases hf with rfl | rfl | rfl | rfl
    · exact lit _ _ (by decide) (by decide) c hc
    · exact lit _ _ (by decide) (by decide) c hc
    · exact lit _ _ (by decide) (by decide) c hc
    · exact lit _ _ (by decide) (by decide) c hc

/-- C161 is false of different data: two bags in different folders can give the same files, the results of the first are lost. -/
theorem C161_files_counterexample : "/data/1/x.bag" ≠ "/data1/x.bag" ∧ outputs "/data/1/x.bag".toList = outputs "/data1/x.bag".toList := by
  decide

/-! ## C162 -/

theorem base_rigid : Rigid !![1, 0, 0, 0; 0, 0, 1, 0; 0, -1, 0, 0; 0, 0, 0, 1] := by
  refine ⟨!![1, 0, 0; 0, 0, 1; 0, -1, 0], ?_, ![0, 0, 0], ?_⟩
  · rw [Matrix.mem_specialOrthogonalGroup_iff]
    constructor
    · rw [Matrix.mem_orthogonalGroup_iff]
      ext i j
      fin_cases i <;> fin_cases j <;> simp [Matrix.mul_apply, Fin.sum_univ_three]
    · rw [Matrix.det_fin_three]
      simp
  · ext i j
    fin_cases i <;> fin_cases j <;> simp [rt2Transform]

theorem base_valid : base.Valid := (C50_from_matrix _ base_rigid).2

/-- C162: every camera of the chain is drawn where it is: what a point is in camera `c`, put at the pose of the drawn camera, is the place of the point
in the picture, the same for all cameras. -/
theorem C162_cameras (baseline : Nat → Trafo) (h : ∀ n, (baseline n).Valid) (n : Nat) :
    (drawCams baseline n).2.length = n ∧
    ∀ c (hc : c < (drawCams baseline n).2.length) (x : V3),
      (drawCams baseline n).2[c].apply (Validator.pose baseline c x) = base.apply x := by
  have key : ∀ n, (drawCams baseline n).2.length = n ∧
      (∀ c (hc : c < (drawCams baseline n).2.length), (drawCams baseline n).2[c].Valid ∧
        ∀ x, (drawCams baseline n).2[c].apply (Validator.pose baseline c x) = base.apply x) ∧
      (∀ m, n = m + 1 → (drawCams baseline n).1.Valid ∧ ∀ x, (drawCams baseline n).1.apply (Validator.pose baseline m x) = base.apply x) := by
    intro n
    induction n with
    | zero => exact ⟨rfl, fun c hc => by simp [drawCams] at hc, fun m hm => by omega⟩
    | succ n ih =>
      obtain ⟨h1, h2, h3⟩ := ih
      have e : drawCams baseline (n + 1) = drawCam baseline (drawCams baseline n) n := by
        unfold drawCams
        rw [List.range_succ, List.foldl_append]
        rfl
      have hT : (drawCam baseline (drawCams baseline n) n).1.Valid ∧
          ∀ x, (drawCam baseline (drawCams baseline n) n).1.apply (Validator.pose baseline n x) = base.apply x := by
        unfold drawCam
        simp only
        cases n with
        | zero => exact ⟨base_valid, fun x => rfl⟩
        | succ m =>
          rw [if_pos (Nat.succ_ne_zero m)]
          obtain ⟨v, p⟩ := h3 m rfl
          have hi := (C50_closed _ _ (h (m + 1)) (h (m + 1))).2.1
          refine ⟨(C50_closed _ _ v hi).1, fun x => ?_⟩
          rw [(C50_action _ _ v hi _).1]
          have : (baseline (m + 1)).inverse.apply (Validator.pose baseline (m + 1) x) = Validator.pose baseline m x :=
            (C50_action _ _ (h (m + 1)) (h (m + 1)) _).2.2.1
          rw [this, p]
      rw [e]
      have el : (drawCam baseline (drawCams baseline n) n).2 = (drawCams baseline n).2 ++ [(drawCam baseline (drawCams baseline n) n).1] := rfl
      refine ⟨by rw [el, List.length_append, h1]; rfl, ?_, fun m hm => ?_⟩
      · intro c hc
        by_cases hcn : c < (drawCams baseline n).2.length
        · simp only [el, List.getElem_append_left hcn]
          exact h2 c hcn
        · have : c = n := by
            rw [el, List.length_append, h1] at hc
            rw [h1] at hcn
            simp at hc
            omega
          subst this
          simp only [el]
          rw [List.getElem_append_right (by omega)]
          simpa [h1] using hT
      · have : m = n := by omega
        subst this
        exact hT
  exact ⟨(key n).1, fun c hc => ((key n).2.1 c hc).2⟩

/-- Beside C162: a chain whose poses are valid. -/
example : ∀ n : Nat, ((fun _ => base) n : Trafo).Valid := fun _ => base_valid

/-- C162: the inertial sensor is drawn where it is. -/
theorem C162_imu (T_cam_imu : Trafo) (h : T_cam_imu.Valid) (x : V3) : (drawImu T_cam_imu).apply x = base.apply (T_cam_imu.apply x) :=
  (C50_action _ _ base_valid h x).1

/-- C162, pinhole cameras: the corners of the outline of a camera are seen at the corners of its image, at whatever scale it is drawn; the last
corner is the centre.  Missing: cameras whose file does not begin with the focal lengths (`C162_omni_counterexample`). -/
theorem C162_outline_partial (scaling fu fv pu pv w h : ℝ) (hs : scaling ≠ 0) (hu : fu ≠ 0) (hv : fv ≠ 0) :
    (outline scaling [fu, fv, pu, pv] (w, h)).map (fun x => (fu * x 0 / x 2 + pu, fv * x 1 / x 2 + pv)) =
      [(0, 0), (w, 0), (w, h), (0, h), (pu, pv)] := by
  have hz : scaling * fu ≠ 0 := mul_ne_zero hs hu
  simp [outline]
  refine ⟨⟨?_, ?_⟩, ⟨?_, ?_⟩, ⟨?_, ?_⟩, ?_, ?_⟩ <;> field_simp <;> ring

/-- C162 is false of omnidirectional cameras: their file begins with the mirror parameter `xi`, which is taken for the focal length; the depth of the
outline is the scale times `xi`. -/
theorem C162_omni_counterexample (scaling xi fu fv pu pv w h : ℝ) :
    (outline scaling [xi, fu, fv, pu, pv] (w, h)).map (fun x => x 2) = [scaling * xi, scaling * xi, scaling * xi, scaling * xi, 0] ∧
    (outline scaling [xi, fu, fv, pu, pv] (w, h)).head? = some ![scaling * -fv, xi / fu * scaling * -pu, scaling * xi] := by
  constructor
  · simp [outline]
  · simp [outline]

/-! ## C163 -/

theorem sum_nonneg_zero (f : ℝ → ℝ) : ∀ l : List ℝ, (∀ m ∈ l, 0 ≤ f m) → 0 ≤ (l.map f).sum ∧ ((l.map f).sum = 0 → ∀ m ∈ l, f m = 0) := by
  intro l
  induction l with
  | nil => intro _; simp
  | cons a l ih =>
    intro h
    obtain ⟨h1, h2⟩ := ih (fun m hm => h m (by simp [hm]))
    have ha := h a (by simp)
    simp only [List.map_cons, List.sum_cons]
    refine ⟨by linarith, fun h0 m hm => ?_⟩
    rcases List.mem_cons.1 hm with rfl | hm
    · linarith
    · exact h2 (by linarith) m hm

theorem sum_pos_of (l : List ℝ) (hne : l ≠ []) (hpos : ∀ m ∈ l, 0 < m) : 0 < l.sum := by
  rcases (sum_nonneg_zero (fun x => x) l (fun m hm => (hpos m hm).le)) with ⟨h1, h2⟩
  simp only [List.map_id'] at h1 h2
  rcases h1.lt_or_eq with h | h
  · exact h
  · obtain ⟨a, ha⟩ := List.exists_mem_of_ne_nil l hne
    exact absurd (h2 h.symm a ha) (hpos a ha).ne'

theorem le_sum_of (l : List ℝ) (hpos : ∀ m ∈ l, 0 < m) : ∀ m ∈ l, m ≤ l.sum := by
  induction l with
  | nil => simp
  | cons a l ih =>
    intro m hm
    rw [List.sum_cons]
    have h0 := (sum_nonneg_zero (fun x => x) l (fun m hm => (hpos m (by simp [hm])).le)).1
    simp only [List.map_id'] at h0
    rcases List.mem_cons.1 hm with rfl | hm
    · linarith
    · have := ih (fun m hm => hpos m (by simp [hm])) m hm
      have := hpos a (by simp)
      linarith

theorem log_gap (x : ℝ) (hx : 0 < x) : 0 ≤ x * Real.log x - x + 1 ∧ (x * Real.log x - x + 1 = 0 ↔ x = 1) := by
  have hi : 0 < x⁻¹ := inv_pos.2 hx
  have e : x * Real.log x - x + 1 = x * (x⁻¹ - 1 - Real.log x⁻¹) := by
    rw [Real.log_inv]
    field_simp
    ring
  have hle := Real.log_le_sub_one_of_pos hi
  refine ⟨by rw [e]; exact mul_nonneg hx.le (by linarith), fun h => ?_, fun h => by rw [h]; simp⟩
  by_contra hne
  have hne' : x⁻¹ ≠ 1 := fun h => hne (inv_eq_one.1 h)
  have hlt := Real.log_lt_sub_one_of_pos hi hne'
  have : 0 < x * (x⁻¹ - 1 - Real.log x⁻¹) := mul_pos hx (by linarith)
  linarith

/-- C163: the measure of focus is a number between minus the logarithm of the number of frequencies and zero, it takes its least value exactly for a
spectrum in which all frequencies are equally strong, and it does not depend on the exposure. -/
theorem C163_focus (l : List ℝ) (hne : l ≠ []) (hpos : ∀ m ∈ l, 0 < m) : ∃ f, fde l = some f ∧ -Real.log l.length ≤ f ∧ f ≤ 0 ∧
    (f = -Real.log l.length ↔ ∀ m ∈ l, m = l.sum / l.length) ∧ ∀ c > 0, fde (l.map (c * ·)) = some f := by
  have hS := sum_pos_of l hne hpos
  have hn : (0 : ℝ) < l.length := by
    have := List.length_pos_of_ne_nil hne
    exact_mod_cast this
  have hz : (0 : ℝ) ∉ l := fun h => lt_irrefl _ (hpos 0 h)
  set S := l.sum with hSdef
  set n : ℝ := (l.length : ℝ) with hndef
  -- the gap of each frequency
  have hx : ∀ m ∈ l, 0 < n * m / S := fun m hm => div_pos (mul_pos hn (hpos m hm)) hS
  have hgap : (l.map fun m => m / S * Real.log (m / S)).sum + Real.log n =
      (l.map fun m => (n * m / S * Real.log (n * m / S) - n * m / S + 1) / n).sum := by
    have aux : ∀ l' : List ℝ, (∀ m ∈ l', 0 < m) →
        (l'.map fun m => (n * m / S * Real.log (n * m / S) - n * m / S + 1) / n).sum =
        (l'.map fun m => m / S * Real.log (m / S)).sum + l'.sum / S * Real.log n - l'.sum / S + (l'.length : ℝ) / n := by
      intro l' hp
      induction l' with
      | nil => simp
      | cons a l' ih =>
        have ha := hp a (by simp)
        simp only [List.map_cons, List.sum_cons, List.length_cons]
        rw [ih (fun m hm => hp m (by simp [hm]))]
        have : Real.log (n * a / S) = Real.log n + Real.log (a / S) := by
          rw [mul_div_assoc, Real.log_mul hn.ne' (div_pos ha hS).ne']
        rw [this]
        push_cast
        field_simp
        ring
    rw [aux l hpos, ← hSdef, ← hndef, div_self hS.ne', div_self hn.ne']
    ring
  have hnon := sum_nonneg_zero (fun m => (n * m / S * Real.log (n * m / S) - n * m / S + 1) / n) l
    (fun m hm => div_nonneg (log_gap _ (hx m hm)).1 hn.le)
  refine ⟨(l.map fun m => m / S * Real.log (m / S)).sum, ?_, ?_, ?_, ⟨?_, ?_⟩, ?_⟩
  · unfold fde
    rw [if_neg (by rintro (h | h); exacts [hS.ne' h, hz h])]
  · linarith [hnon.1]
  · have hle : ∀ m ∈ l, 0 ≤ -(m / S * Real.log (m / S)) := by
      intro m hm
      have h1 : m / S ≤ 1 := (div_le_one hS).2 (le_sum_of l hpos m hm)
      have h2 : Real.log (m / S) ≤ 0 := Real.log_nonpos (div_pos (hpos m hm) hS).le h1
      have := mul_nonneg (div_pos (hpos m hm) hS).le (neg_nonneg.2 h2)
      linarith
    have h := (sum_nonneg_zero (fun m => -(m / S * Real.log (m / S))) l hle).1
    have e : ∀ l' : List ℝ, (l'.map fun m => -(m / S * Real.log (m / S))).sum = -(l'.map fun m => m / S * Real.log (m / S)).sum := by
      intro l'
      induction l' with
      | nil => simp
      | cons a l' ih => simp only [List.map_cons, List.sum_cons, ih]; ring
    rw [e] at h
    linarith
  · intro h m hm
    have h0 := hnon.2 (by rw [← hgap, h]; ring) m hm
    have h1 : n * m / S * Real.log (n * m / S) - n * m / S + 1 = 0 := by
      rcases div_eq_zero_iff.1 h0 with h | h
      · exact h
      · exact absurd h hn.ne'
    have h2 := (log_gap _ (hx m hm)).2.1 h1
    rw [div_eq_one_iff_eq hS.ne'] at h2
    rw [eq_div_iff hn.ne', mul_comm]
    exact h2
  · intro h
    have : (l.map fun m => (n * m / S * Real.log (n * m / S) - n * m / S + 1) / n).sum = (l.map fun _ => (0 : ℝ)).sum := by
      congr 1
      refine List.map_congr_left fun m hm => ?_
      have : n * m / S = 1 := by
        rw [div_eq_one_iff_eq hS.ne', h m hm]
        field_simp
      rw [this]
      simp
    rw [this] at hgap
    simp at hgap
    simp only [hndef] at *
    linarith
  · intro c hc
    have es : (l.map (c * ·)).sum = c * S := by
      have : ∀ l' : List ℝ, (l'.map (c * ·)).sum = c * l'.sum := by
        intro l'
        induction l' with
        | nil => simp
        | cons a l' ih => simp only [List.map_cons, List.sum_cons, ih]; ring
      exact this l
    unfold fde
    rw [es, if_neg]
    · rw [List.map_map]
      congr 2
      refine List.map_congr_left fun m _ => ?_
      simp only [Function.comp]
      rw [mul_div_mul_left _ _ hc.ne']
    · rintro (h | h)
      · exact (mul_pos hc hS).ne' h
      · obtain ⟨m, hm, he⟩ := List.mem_map.1 h
        exact (mul_pos hc (hpos m hm)).ne' he

/-- Beside C163: a spectrum of two equal frequencies has the least value. -/
example : ∃ f, fde [1, 1] = some f ∧ f = -Real.log ((2 : ℕ) : ℝ) := by
  obtain ⟨f, h, _, _, he, _⟩ := C163_focus [1, 1] (by simp) (by simp)
  refine ⟨f, h, he.2 ?_⟩
  simp

/-- C163: a frequency that is missing makes the measure not a number. -/
theorem C163_missing_frequency (l : List ℝ) (h : (0 : ℝ) ∈ l) : fde l = none := by
  unfold fde
  rw [if_pos (Or.inr h)]

end Kalibr.Visual
