import Verif.Init.Median
import Mathlib.Data.List.Nodup
import Mathlib.Data.List.Range

/-!
# C143: the first guess
-/

namespace Kalibr.Init

open Kalibr.Kin Real

variable {M X Y : Type} [Group M] [MulAction M X]

/-! ## The initial baseline -/

/-- A rotation that survives the way through its rotation vector (C51). -/
theorem rv_trip {R : M3} (hR : R ∈ SO3) (ha : R = 1 ∨ 1 / 10 ^ 14 ≤ arccos ((R 0 0 + R 1 1 + R 2 2 - 1) / 2) ∧
    arccos ((R 0 0 + R 1 1 + R 2 2 - 1) / 2) ≤ π - 1 / 10 ^ 14) : rvToR (rvOfR R) = R := by
  rcases ha with rfl | ⟨h0, h1⟩
  · have e : rvToR 0 = 1 := by
      unfold rvToR
      have : norm3 0 = 0 := by simp [norm3]
      simp [this]
    rw [← e, C51_vector_round_trip_partial 0 (Or.inl rfl)]
  · exact (C51_matrix_round_trip_partial R hR h0 h1).1

open Classical in
/-- **C143, the baseline.** If more than half of the views that both cameras see give one and the same baseline, it is the
initial one, whatever the other views give; its angle must not be within `1e-14` of zero (unless it is zero) or a half turn. -/
theorem C143_baseline_partial (C : M → M3) (t : M → V3) (make : M3 → V3 → M) (bs : List M) (B : M) (hmake : make (C B) (t B) = B)
    (hR : C B ∈ SO3) (ha : C B = 1 ∨ 1 / 10 ^ 14 ≤ arccos ((C B 0 0 + C B 1 1 + C B 2 2 - 1) / 2) ∧
      arccos ((C B 0 0 + C B 1 1 + C B 2 2 - 1) / 2) ≤ π - 1 / 10 ^ 14)
    (h : bs.length < 2 * bs.countP fun b => decide (b = B)) : stereoGuess C t make bs = .ok B := by
  have hne : bs ≠ [] := by
    rintro rfl
    simp at h
  have e1 : median3 (bs.map fun b => rvOfR (C b)) = rvOfR (C B) := by
    funext k
    unfold median3
    rw [List.map_map]
    apply median_of_most bs _ (fun b => decide (b = B)) _ h
    intro x _ hx
    rw [decide_eq_true_eq] at hx
    rw [hx]; rfl
  have e2 : median3 (bs.map t) = t B := by
    funext k
    unfold median3
    rw [List.map_map]
    apply median_of_most bs _ (fun b => decide (b = B)) _ h
    intro x _ hx
    rw [decide_eq_true_eq] at hx
    rw [hx]; rfl
  unfold stereoGuess
  rw [if_neg hne, e1, e2, rv_trip hR ha, hmake]

/-! ## The error terms -/

theorem termsOf_mem (n cam view : ℕ) (o : Obs Y) (e : Term Y) :
    e ∈ termsOf n cam view o ↔ e.cam = cam ∧ e.view = view ∧ e.corner < n ∧ o e.corner = some e.y := by
  unfold termsOf
  rw [List.mem_filterMap]
  constructor
  · rintro ⟨i, hi, h⟩
    rw [Option.map_eq_some_iff] at h
    obtain ⟨y, hy, rfl⟩ := h
    exact ⟨rfl, rfl, List.mem_range.1 hi, hy⟩
  · rintro ⟨rfl, rfl, h3, h4⟩
    exact ⟨e.corner, List.mem_range.2 h3, by rw [h4]; rfl⟩

theorem termsOf_nodup (n cam view : ℕ) (o : Obs Y) : (termsOf n cam view o).Nodup := by
  unfold termsOf
  refine List.Nodup.filterMap ?_ List.nodup_range
  intro i j e hi hj
  rw [Option.mem_def, Option.map_eq_some_iff] at hi hj
  obtain ⟨y, -, rfl⟩ := hi
  obtain ⟨z, -, hz⟩ := hj
  injection hz with _ _ h3
  exact h3.symm

theorem viewsOf_mem {α : Type} (n cam : ℕ) (views : List α) (f : α → Option (Obs Y)) (e : Term Y) :
    e ∈ (views.zipIdx.flatMap fun v => ((f v.1).map (termsOf n cam v.2)).getD []) ↔
      e.cam = cam ∧ ∃ a o, views[e.view]? = some a ∧ f a = some o ∧ e.corner < n ∧ o e.corner = some e.y := by
  rw [List.mem_flatMap]
  constructor
  · rintro ⟨v, hv, he⟩
    rw [List.mem_zipIdx_iff_getElem?] at hv
    cases hf : f v.1 with
    | none => rw [hf] at he; simp at he
    | some o =>
      rw [hf] at he
      obtain ⟨h1, h2, h3, h4⟩ := (termsOf_mem ..).1 he
      exact ⟨h1, v.1, o, by rw [h2]; exact hv, hf, h3, h4⟩
  · rintro ⟨rfl, a, o, h1, h2, h3, h4⟩
    refine ⟨(a, e.view), List.mem_zipIdx_iff_getElem?.2 h1, ?_⟩
    simp only [h2]
    exact (termsOf_mem ..).2 ⟨rfl, rfl, h3, h4⟩

theorem zipIdx_ne {α : Type} (l : List α) (k : ℕ) : (l.zipIdx k).Pairwise fun a b => a.2 ≠ b.2 := by
  have h := List.nodup_range' (s := k) (n := l.length)
  rw [← List.zipIdx_map_snd k l] at h
  exact List.pairwise_map.1 h

theorem viewsOf_nodup {α : Type} (n cam : ℕ) (views : List α) (f : α → Option (Obs Y)) :
    (views.zipIdx.flatMap fun v => ((f v.1).map (termsOf n cam v.2)).getD []).Nodup := by
  rw [List.nodup_flatMap]
  constructor
  · intro v _
    cases f v.1 with
    | none => simp
    | some o => exact termsOf_nodup ..
  · refine (zipIdx_ne views 0).imp ?_
    intro a b hab
    rw [Function.onFun, List.disjoint_left]
    intro e ha hb
    apply hab
    have key : ∀ v : α × ℕ, e ∈ ((f v.1).map (termsOf n cam v.2)).getD [] → e.view = v.2 := by
      intro v he
      cases hf : f v.1 with
      | none => rw [hf] at he; simp at he
      | some o =>
        rw [hf] at he
        exact ((termsOf_mem ..).1 he).2.1
    rw [← key a ha, ← key b hb]

/-! ## A pair of cameras -/

/-- What a camera sees in a view. -/
def seen (views : List (Option (Obs Y) × Option (Obs Y))) (cam view : ℕ) : Option (Obs Y) :=
  match views[view]? with
  | none => none
  | some v => if cam = 0 then v.1 else if cam = 1 then v.2 else none

theorem stereo_ok {C : M → M3} {t : M → V3} {make : M3 → V3 → M} {pnpL pnpH : Obs Y → M} {n : ℕ} {act : Bool} {b0 : Option M}
    {views : List (Option (Obs Y) × Option (Obs Y))} {P : Problem M Y} (h : stereoProblem C t make pnpL pnpH n act b0 views = .ok P) :
    ∃ b poses, stereoStart C t make pnpL pnpH b0 views = .ok b ∧ views.mapM (stereoPose pnpL pnpH b) = .ok poses ∧
      P = ⟨[b], poses,
        [(.baseQ 0, true), (.baseT 0, true)] ++ (List.range views.length).flatMap poseDvs ++ camDvs 0 true act ++ camDvs 1 true act,
        (views.zipIdx.flatMap fun v => (v.1.1.map (termsOf n 0 v.2)).getD []) ++
          views.zipIdx.flatMap fun v => (v.1.2.map (termsOf n 1 v.2)).getD []⟩ := by
  unfold stereoProblem at h
  cases hb : stereoStart C t make pnpL pnpH b0 views with
  | ub => rw [hb] at h; cases h
  | raise => rw [hb] at h; cases h
  | ok b =>
    rw [hb, Out.ok_bind] at h
    cases hp : views.mapM (stereoPose pnpL pnpH b) with
    | ub => rw [hp] at h; cases h
    | raise => rw [hp] at h; cases h
    | ok poses =>
      rw [hp, Out.ok_bind] at h
      injection h with h
      exact ⟨b, poses, rfl, hp, h.symm⟩

/-- **C143, the error terms of a pair.** There is one error term for each corner that a camera sees in a view, and no other. -/
theorem C143_stereo_terms (C : M → M3) (t : M → V3) (make : M3 → V3 → M) (pnpL pnpH : Obs Y → M) (n : ℕ) (act : Bool) (b0 : Option M)
    (views : List (Option (Obs Y) × Option (Obs Y))) (P : Problem M Y) (h : stereoProblem C t make pnpL pnpH n act b0 views = .ok P) :
    P.terms.Nodup ∧ ∀ e : Term Y, e ∈ P.terms ↔ ∃ o, seen views e.cam e.view = some o ∧ e.corner < n ∧ o e.corner = some e.y := by
  obtain ⟨b, poses, -, -, rfl⟩ := stereo_ok h
  constructor
  · simp only
    rw [List.nodup_append]
    refine ⟨viewsOf_nodup n 0 views Prod.fst, viewsOf_nodup n 1 views Prod.snd, ?_⟩
    intro e he e' he' hee
    have h0 := ((viewsOf_mem n 0 views Prod.fst e).1 he).1
    have h1 := ((viewsOf_mem n 1 views Prod.snd e').1 he').1
    rw [← hee, h0] at h1
    exact absurd h1 (by decide)
  · intro e
    simp only
    rw [List.mem_append]
    have m0 := viewsOf_mem n 0 views Prod.fst e
    have m1 := viewsOf_mem n 1 views Prod.snd e
    unfold seen
    constructor
    · rintro (he | he)
      · obtain ⟨hc, a, o, h1, h2, h3, h4⟩ := m0.1 he
        refine ⟨o, ?_, h3, h4⟩
        simp only [h1, if_pos hc]
        exact h2
      · obtain ⟨hc, a, o, h1, h2, h3, h4⟩ := m1.1 he
        refine ⟨o, ?_, h3, h4⟩
        simp only [h1, hc]
        exact h2
    · rintro ⟨o, ho, h3, h4⟩
      cases hv : views[e.view]? with
      | none => simp [hv] at ho
      | some a =>
        simp only [hv] at ho
        by_cases h0 : e.cam = 0
        · rw [if_pos h0] at ho
          exact Or.inl (m0.2 ⟨h0, a, o, hv, ho, h3, h4⟩)
        · rw [if_neg h0] at ho
          by_cases h1 : e.cam = 1
          · rw [if_pos h1] at ho
            exact Or.inr (m1.2 ⟨h1, a, o, hv, ho, h3, h4⟩)
          · rw [if_neg h1] at ho
            cases ho

theorem camPose_eq (bs : List M) (T : M) (c : ℕ) : camPose bs T c = (bs.take c).foldl (fun T b => b * T) 1 * T⁻¹ := by
  unfold camPose
  have key : ∀ (l : List M) (x : M), l.foldl (fun T b => b * T) x = l.foldl (fun T b => b * T) 1 * x := by
    intro l
    induction l with
    | nil => intro x; simp
    | cons a l ih =>
      intro x
      rw [List.foldl_cons, List.foldl_cons, ih (a * x), ih (a * 1)]
      simp [mul_assoc]
  exact key _ _

theorem mapM_getElem {α β : Type} (l : List α) (f : α → Out β) {r : List β} (h : l.mapM f = .ok r) :
    r.length = l.length ∧ ∀ (k : ℕ) (a : α), l[k]? = some a → ∃ b, r[k]? = some b ∧ f a = .ok b := by
  induction l generalizing r with
  | nil =>
    have hr : r = [] := by
      have e : ([] : List α).mapM f = Out.ok [] := rfl
      rw [e] at h
      injection h with h
      exact h.symm
    rw [hr]
    simp
  | cons x l ih =>
    rw [List.mapM_cons] at h
    cases hx : f x with
    | ub => rw [hx] at h; cases h
    | raise => rw [hx] at h; cases h
    | ok b =>
      rw [hx, Out.ok_bind] at h
      cases hl : l.mapM f with
      | ub => rw [hl] at h; cases h
      | raise => rw [hl] at h; cases h
      | ok s =>
        rw [hl, Out.ok_bind] at h
        injection h with h
        obtain ⟨h1, h2⟩ := ih hl
        rw [← h]
        refine ⟨by simp [h1], ?_⟩
        intro k a ha
        cases k with
        | zero =>
          rw [List.getElem?_cons_zero] at ha
          injection ha with ha
          exact ⟨b, rfl, by rw [← ha]; exact hx⟩
        | succ k =>
          rw [List.getElem?_cons_succ] at ha
          obtain ⟨b', hb', hf⟩ := h2 k a ha
          exact ⟨b', by rw [List.getElem?_cons_succ]; exact hb', hf⟩

theorem mapM_ok_of {α β : Type} (l : List α) (f : α → Out β) (h : ∀ a ∈ l, ∃ b, f a = .ok b) : ∃ r, l.mapM f = .ok r := by
  induction l with
  | nil => exact ⟨[], rfl⟩
  | cons x l ih =>
    obtain ⟨b, hb⟩ := h x (List.mem_cons_self ..)
    obtain ⟨r, hr⟩ := ih fun a ha => h a (List.mem_cons_of_mem _ ha)
    exact ⟨b :: r, by rw [List.mapM_cons, hb, Out.ok_bind, hr, Out.ok_bind]; rfl⟩

/-- **C143, a pair with exact data.** Let `T` be the poses of the target in the frame of the first camera and `B` the
baseline. If the poses computed from single observations and the image points are exact, the problem starts at the true baseline
and poses, and there every error term compares its image point with the same point. -/
theorem C143_stereo_exact_partial (C : M → M3) (t : M → V3) (make : M3 → V3 → M) (pnpL pnpH : Obs Y → M) (n : ℕ) (act : Bool)
    (views : List (Option (Obs Y) × Option (Obs Y))) (proj : ℕ → X → Y) (point : ℕ → X) (T : ℕ → M) (B : M)
    (hmake : make (C B) (t B) = B) (hR : C B ∈ SO3)
    (ha : C B = 1 ∨ 1 / 10 ^ 14 ≤ arccos ((C B 0 0 + C B 1 1 + C B 2 2 - 1) / 2) ∧
      arccos ((C B 0 0 + C B 1 1 + C B 2 2 - 1) / 2) ≤ π - 1 / 10 ^ 14)
    (hL : ∀ k o, seen views 0 k = some o → pnpL o = T k ∧ ∀ i y, o i = some y → y = proj 0 ((T k)⁻¹ • point i))
    (hH : ∀ k o, seen views 1 k = some o → pnpH o = T k * B⁻¹ ∧ ∀ i y, o i = some y → y = proj 1 ((B * (T k)⁻¹) • point i))
    (hboth : ∃ v ∈ views, v.1.isSome = true ∧ v.2.isSome = true) (hany : ∀ v ∈ views, v.1.isSome = true ∨ v.2.isSome = true) :
    ∃ P, stereoProblem C t make pnpL pnpH n act none views = .ok P ∧ P.baselines = [B] ∧ P.poses.length = views.length ∧
      (∀ k < views.length, P.poses[k]? = some (T k)) ∧
      ∀ e ∈ P.terms, predict proj point P.baselines (fun k => P.poses.getD k 1) e = e.y := by
  have hmem : ∀ v ∈ views, ∃ k, views[k]? = some v ∧ seen views 0 k = v.1 ∧ seen views 1 k = v.2 := by
    intro v hv
    obtain ⟨k, hk⟩ := List.mem_iff_getElem?.1 hv
    exact ⟨k, hk, by unfold seen; rw [hk]; rfl, by unfold seen; rw [hk]; rfl⟩
  have hpb : ∀ b ∈ pairBaselines pnpL pnpH views, b = B := by
    intro b hb
    unfold pairBaselines at hb
    obtain ⟨v, hv, hvb⟩ := List.mem_filterMap.1 hb
    obtain ⟨k, hk, s0, s1⟩ := hmem v hv
    rcases v with ⟨_ | l, _ | h⟩
    · cases hvb
    · cases hvb
    · cases hvb
    · have e : (pnpH h)⁻¹ * pnpL l = b := by injection hvb
      rw [← e, (hL k l s0).1, (hH k h s1).1]
      simp
  have hne : pairBaselines pnpL pnpH views ≠ [] := by
    obtain ⟨v, hv, h1, h2⟩ := hboth
    obtain ⟨l, hl⟩ := Option.isSome_iff_exists.1 h1
    obtain ⟨h, hh⟩ := Option.isSome_iff_exists.1 h2
    have : (pnpH h)⁻¹ * pnpL l ∈ pairBaselines pnpL pnpH views := by
      unfold pairBaselines
      refine List.mem_filterMap.2 ⟨v, hv, ?_⟩
      rw [hl, hh]
    intro hc
    rw [hc] at this
    cases this
  have hguess : stereoGuess C t make (pairBaselines pnpL pnpH views) = .ok B := by
    classical
    apply C143_baseline_partial C t make _ B hmake hR ha
    have : (pairBaselines pnpL pnpH views).countP (fun b => decide (b = B)) = (pairBaselines pnpL pnpH views).length :=
      List.countP_eq_length.2 fun b hb => by rw [decide_eq_true_eq]; exact hpb b hb
    have hpos : 0 < (pairBaselines pnpL pnpH views).length := List.length_pos_iff.2 hne
    have e : (pairBaselines pnpL pnpH views).countP (fun b => decide (b = B)) =
        (pairBaselines pnpL pnpH views).countP (fun b => @decide (b = B) (Classical.propDecidable _)) := by
      apply List.countP_congr
      intro x _
      simp
    omega
  have hposes : ∃ poses, views.mapM (stereoPose pnpL pnpH B) = .ok poses := by
    apply mapM_ok_of
    intro v hv
    rcases hvv : v with ⟨_ | l, _ | h⟩
    · exfalso
      rcases hany v hv with h | h <;> rw [hvv] at h <;> cases h
    · exact ⟨_, rfl⟩
    · exact ⟨_, rfl⟩
    · exact ⟨_, rfl⟩
  obtain ⟨poses, hposes⟩ := hposes
  obtain ⟨hlen, hget⟩ := mapM_getElem _ _ hposes
  have hT : ∀ k < views.length, poses[k]? = some (T k) := by
    intro k hk
    obtain ⟨v, hv⟩ : ∃ v, views[k]? = some v := ⟨views[k], List.getElem?_eq_getElem hk⟩
    obtain ⟨b, hb, hf⟩ := hget k v hv
    rw [hb]
    have s0 : seen views 0 k = v.1 := by unfold seen; rw [hv]; rfl
    have s1 : seen views 1 k = v.2 := by unfold seen; rw [hv]; rfl
    rcases hvv : v with ⟨_ | l, _ | h⟩
    · exfalso
      rcases hany v (List.mem_of_getElem? hv) with h | h <;> rw [hvv] at h <;> cases h
    · rw [hvv] at hf s1
      have e : pnpH h * B = b := by injection hf
      rw [← e, (hH k h s1).1]
      simp
    · rw [hvv] at hf s0
      have e : pnpL l = b := by injection hf
      rw [← e, (hL k l s0).1]
    · rw [hvv] at hf s0
      have e : pnpL l = b := by injection hf
      rw [← e, (hL k l s0).1]
  have hP : stereoProblem C t make pnpL pnpH n act none views = .ok ⟨[B], poses,
        [(.baseQ 0, true), (.baseT 0, true)] ++ (List.range views.length).flatMap poseDvs ++ camDvs 0 true act ++ camDvs 1 true act,
        (views.zipIdx.flatMap fun v => (v.1.1.map (termsOf n 0 v.2)).getD []) ++
          views.zipIdx.flatMap fun v => (v.1.2.map (termsOf n 1 v.2)).getD []⟩ := by
    unfold stereoProblem
    have hs : stereoStart C t make pnpL pnpH none views = .ok B := hguess
    rw [hs, Out.ok_bind, hposes, Out.ok_bind]
    rfl
  refine ⟨_, hP, rfl, hlen, hT, ?_⟩
  intro e he
  obtain ⟨o, ho, h3, h4⟩ := ((C143_stereo_terms _ _ _ _ _ _ _ _ _ _ hP).2 e).1 he
  have hv : e.view < views.length := by
    by_contra hc
    unfold seen at ho
    rw [List.getElem?_eq_none (by omega)] at ho
    cases ho
  have hpose : poses.getD e.view 1 = T e.view := by
    rw [List.getD_eq_getElem?_getD, hT _ hv]
    rfl
  unfold predict
  simp only [hpose]
  rw [camPose_eq]
  by_cases h0 : e.cam = 0
  · rw [h0] at ho ⊢
    rw [(hL _ _ ho).2 _ _ h4]
    simp
  · by_cases h1 : e.cam = 1
    · rw [h1] at ho ⊢
      rw [(hH _ _ ho).2 _ _ h4]
      simp
    · exfalso
      unfold seen at ho
      cases hvv : views[e.view]? with
      | none => simp [hvv] at ho
      | some v => simp [hvv, h0, h1] at ho

/-- **C143, failure.** If the optimizer fails the result says so and holds the initial baseline; a given baseline is used as it is. -/
theorem C143_stereo_result (C : M → M3) (t : M → V3) (make : M3 → V3 → M) (pnpL pnpH : Obs Y → M) (n : ℕ) (act : Bool) (b0 : Option M)
    (views : List (Option (Obs Y) × Option (Obs Y))) (P : Problem M Y) (h : stereoProblem C t make pnpL pnpH n act b0 views = .ok P)
    (optimize : Problem M Y → Option M) :
    ∃ b, P.baselines = [b] ∧ (∀ b', b0 = some b' → b = b') ∧
      stereoCalibrate C t make pnpL pnpH n act b0 views optimize = .ok ((optimize P).isSome, (optimize P).getD b) := by
  obtain ⟨b, poses, hb, -, rfl⟩ := stereo_ok h
  refine ⟨b, rfl, ?_, ?_⟩
  · intro b' hb'
    rw [hb'] at hb
    injection hb with hb
    exact hb.symm
  · unfold stereoCalibrate
    rw [h, Out.ok_bind]
    cases optimize _ <;> rfl

/-- **C143, no common view.** Without a given baseline the function ends with an error exactly if no view is seen by both cameras
or a view is seen by none. -/
theorem C143_stereo_total (C : M → M3) (t : M → V3) (make : M3 → V3 → M) (pnpL pnpH : Obs Y → M) (n : ℕ) (act : Bool)
    (views : List (Option (Obs Y) × Option (Obs Y))) :
    (∃ P, stereoProblem C t make pnpL pnpH n act none views = .ok P) ↔
      (∃ v ∈ views, v.1.isSome = true ∧ v.2.isSome = true) ∧ ∀ v ∈ views, v.1.isSome = true ∨ v.2.isSome = true := by
  constructor
  · rintro ⟨P, h⟩
    obtain ⟨b, poses, hb, hp, -⟩ := stereo_ok h
    constructor
    · by_contra hc
      push Not at hc
      have : pairBaselines pnpL pnpH views = [] := by
        unfold pairBaselines
        rw [List.filterMap_eq_nil_iff]
        intro v hv
        rcases hvv : v with ⟨_ | l, _ | h⟩
        · rfl
        · rfl
        · rfl
        · exact absurd (hc v hv (by rw [hvv]; rfl)) (by rw [hvv]; simp)
      unfold stereoStart at hb
      simp only at hb
      rw [this] at hb
      unfold stereoGuess at hb
      rw [if_pos rfl] at hb
      cases hb
    · intro v hv
      obtain ⟨k, hk⟩ := List.mem_iff_getElem?.1 hv
      obtain ⟨b', -, hf⟩ := (mapM_getElem _ _ hp).2 k v hk
      rcases hvv : v with ⟨_ | l, _ | h⟩
      · rw [hvv] at hf
        cases hf
      · exact Or.inr rfl
      · exact Or.inl rfl
      · exact Or.inl rfl
  · rintro ⟨⟨v, hv, h1, h2⟩, hany⟩
    have hne : pairBaselines pnpL pnpH views ≠ [] := by
      obtain ⟨l, hl⟩ := Option.isSome_iff_exists.1 h1
      obtain ⟨h, hh⟩ := Option.isSome_iff_exists.1 h2
      have : (pnpH h)⁻¹ * pnpL l ∈ pairBaselines pnpL pnpH views := by
        unfold pairBaselines
        refine List.mem_filterMap.2 ⟨v, hv, ?_⟩
        rw [hl, hh]
      intro hc
      rw [hc] at this
      cases this
    unfold stereoProblem stereoStart
    simp only
    unfold stereoGuess
    rw [if_neg hne, Out.ok_bind]
    obtain ⟨r, hr⟩ := mapM_ok_of views (stereoPose pnpL pnpH (make (rvToR (median3 ((pairBaselines pnpL pnpH views).map fun b => rvOfR (C b)))) (median3 ((pairBaselines pnpL pnpH views).map t)))) (by
      intro v hv
      rcases hvv : v with ⟨_ | l, _ | h⟩
      · exfalso
        rcases hany v hv with h | h <;> rw [hvv] at h <;> cases h
      · exact ⟨_, rfl⟩
      · exact ⟨_, rfl⟩
      · exact ⟨_, rfl⟩)
    rw [hr, Out.ok_bind]
    exact ⟨_, rfl⟩

end Kalibr.Init
