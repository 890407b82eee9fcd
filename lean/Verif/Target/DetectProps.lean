import Verif.Target.ObsProps

/-!
# Properties of the target detector (C90, C91)
-/

namespace Kalibr.Target

open Kalibr

variable {T : Type}

/-! ## Specification -/

/-- Distance in the image between an observed corner and the projection of its target point. -/
noncomputable def View.reprojError (v : View) (project : T → P3 → P2) (x : T) (i : ℕ) : ℝ :=
  let d := (v.seen i).getD (0, 0)
  let r := project x ((v.target.pts.getD i 0).1, (v.target.pts.getD i 0).2.1, 0)
  √((d.1 - r.1) ^ 2 + (d.2 - r.2) ^ 2)

/-- The errors of all observed corners. -/
noncomputable def View.errors (v : View) (project : T → P3 → P2) (x : T) : List ℝ :=
  v.indices.map (v.reprojError project x)

/-- Arithmetic mean. -/
noncomputable def mean (l : List ℝ) : ℝ := l.sum / l.length

/-- Population standard deviation. -/
noncomputable def sdev (l : List ℝ) : ℝ := √((l.map fun e => (e - mean l) ^ 2).sum / l.length)

/-- A corner is an outlier when its error exceeds both the statistical and the absolute threshold. -/
def View.Outlier (v : View) (opt : DetectorOptions) (project : T → P3 → P2) (x : T) (i : ℕ) : Prop :=
  v.reprojError project x i > mean (v.errors project x) + opt.sigma * sdev (v.errors project x) ∧
  v.reprojError project x i > opt.minReprojError

open Classical in
/-- The view without its outliers. -/
noncomputable def View.withoutOutliers (v : View) (opt : DetectorOptions) (project : T → P3 → P2)
    (x : T) : View :=
  ⟨v.target, fun i => if v.Outlier opt project x i then none else v.seen i⟩

/-! ## The filter -/

theorem meanOf_eq (l : List ℝ) : meanOf l = mean l := rfl

theorem stdOf_eq (l : List ℝ) : stdOf l = sdev l := by
  unfold stdOf sdev
  simp only [meanOf_eq, ← pow_two]

theorem errorNorms_ok {v : View} (project : T → P3 → P2) (x : T) :
    errorNorms v.indices.length (v.indices.map fun i => (v.seen i).getD (0, 0))
      (v.indices.map fun i =>
        project x ((v.target.pts.getD i 0).1, (v.target.pts.getD i 0).2.1, 0)) =
      .ok (v.errors project x) := by
  unfold errorNorms
  set l := v.indices with hl
  have := collect' l.length (fun _ => true) (fun i => v.reprojError project x (l.getD i 0))
    (fun (acc : List ℝ) i => do
      let d ← readAt (l.map fun i => (v.seen i).getD (0, 0)) i
      let r ← readAt (l.map fun i =>
        project x ((v.target.pts.getD i 0).1, (v.target.pts.getD i 0).2.1, 0)) i
      let ex := d.1 - r.1
      let ey := d.2 - r.2
      .ok (acc ++ [√(ex * ex + ey * ey)])) (by
      intro i hi acc
      have e1 : readAt (l.map fun i => (v.seen i).getD (0, 0)) i =
          .ok ((v.seen l[i]).getD (0, 0)) := by
        rw [readAt_ok (by simpa using hi)]; simp
      have e2 : readAt (l.map fun i =>
          project x ((v.target.pts.getD i 0).1, (v.target.pts.getD i 0).2.1, 0)) i =
          .ok (project x ((v.target.pts.getD l[i] 0).1, (v.target.pts.getD l[i] 0).2.1, 0)) := by
        rw [readAt_ok (by simpa using hi)]; simp
      have e3 : l.getD i 0 = l[i] := by simp [hi]
      rw [e1, e2, e3]
      simp only [Out.ok_bind, if_true, View.reprojError, pow_two])
  rw [this]
  congr 1
  simp only [List.filter_true, View.errors, ← hl]
  apply List.ext_getElem
  · simp
  · intro i h1 h2
    simp at h1
    simp [h1]

/-- **C90**: the outlier filter removes exactly the corners whose error exceeds the mean by `sigma`
standard deviations and exceeds the absolute threshold, and leaves every other corner, its image point
and the pose as they were. -/
theorem C90_filter (opt : DetectorOptions) (project : T → P3 → P2) {o : Obs T} {v : View}
    (h : Rel o v) (hc : v.target.Complete) {x : T} (hx : o.pose = some x) :
    ∃ o', filterOutliers opt project o = .ok o' ∧ o'.pose = some x ∧
      Rel o' (v.withoutOutliers opt project x) := by
  classical
  have hstep : ∃ o', (List.range v.indices.length).foldlM (fun (o : Obs T) i => do
      let e ← readAt (v.errors project x) i
      if e > meanOf (v.errors project x) + opt.sigma * stdOf (v.errors project x) ∧
          e > opt.minReprojError then
        let k ← readAt v.indices i
        o.removeImagePoint k
      else .ok o) o = .ok o' ∧ (o'.pose = some x ∧
      Rel o' ⟨v.target, fun i => if v.Outlier opt project x i ∧ i ∈ v.indices.take v.indices.length
        then none else v.seen i⟩) := by
    refine foldlM_range_inv (P := fun k o' => o'.pose = some x ∧
      Rel o' ⟨v.target, fun i => if v.Outlier opt project x i ∧ i ∈ v.indices.take k
        then none else v.seen i⟩) ⟨hx, by simpa using h⟩ ?_
    rintro k hk o1 ⟨hp, hr⟩
    have e1 : readAt (v.errors project x) k = .ok (v.reprojError project x v.indices[k]) := by
      rw [readAt_ok (by simpa [View.errors] using hk)]
      simp [View.errors]
    have e2 : readAt v.indices k = .ok v.indices[k] := readAt_ok hk
    have hmem : ∀ j, j ∈ v.indices.take (k + 1) ↔ j ∈ v.indices.take k ∨ j = v.indices[k] := by
      intro j
      rw [List.take_succ_eq_append_getElem hk, List.mem_append, List.mem_singleton]
    by_cases ho : v.Outlier opt project x v.indices[k]
    · have hk' : v.indices[k] < v.target.size := (View.mem_indices.mp (List.getElem_mem hk)).1
      obtain ⟨o2, h2, hp2, hr2⟩ := rel_remove hr hk'
      refine ⟨o2, ?_, by rw [hp2, hp], ?_⟩
      · rw [e1, e2]
        simp only [Out.ok_bind, meanOf_eq, stdOf_eq]
        rw [if_pos (show _ ∧ _ from ho), h2]
      · convert hr2 using 2
        funext j
        by_cases hj : j = v.indices[k]
        · subst hj
          simp only [Function.update_self]
          rw [if_pos ⟨ho, (hmem _).mpr (Or.inr rfl)⟩]
        · rw [Function.update_of_ne hj]
          simp only [hmem, hj, or_false]
    · refine ⟨o1, ?_, hp, ?_⟩
      · rw [e1]
        simp only [Out.ok_bind, meanOf_eq, stdOf_eq]
        rw [if_neg (show ¬ (_ ∧ _) from ho)]
      · convert hr using 2
        funext j
        by_cases hj : j = v.indices[k]
        · subst hj
          simp [ho]
        · simp only [hmem, hj, or_false]
  obtain ⟨o', h1, h2, h3⟩ := hstep
  refine ⟨o', ?_, h2, ?_⟩
  · unfold filterOutliers
    simp only [h.reproj hc hx project, h.image, Out.ok_bind, errorNorms_ok, h.idx, List.length_map]
    exact h1
  · convert h3 using 2
    · rfl
    funext i
    simp only [List.take_length, View.withoutOutliers]
    by_cases ho : v.Outlier opt project x i
    · by_cases hi : i ∈ v.indices
      · simp [ho, hi]
      · have : v.seen i = none := by
          by_cases hlt : i < v.target.size
          · by_contra hne
            exact hi (View.mem_indices.mpr ⟨hlt, Option.isSome_iff_ne_none.mpr hne⟩)
          · exact h.out i (by omega)
        simp [ho, hi, this]
    · simp [ho]

example : ∃ (o : Obs Unit) (v : View), Rel o v ∧ v.target.Complete ∧ o.pose = some () := by
  obtain ⟨o, -, h, -⟩ := rel_new (T := Unit) ⟨1, 2, [(0, 0, 0), (1, 0, 0)]⟩ ⟨none, [], [], none⟩
  exact ⟨{ o with pose := some () }, _, ⟨h.target, h.lp, h.ls, h.succ, h.pt, h.out⟩, rfl, rfl⟩

/-! ## How much the filter can remove -/

theorem sum_gt_of_forall {l : List ℝ} {c : ℝ} (hne : l ≠ []) (h : ∀ e ∈ l, c < e) :
    (l.length : ℝ) * c < l.sum := by
  induction l with
  | nil => exact absurd rfl hne
  | cons a l ih =>
    have ha := h a (List.mem_cons_self ..)
    by_cases hl : l = []
    · subst hl; simpa using ha
    · have := ih hl (fun e he => h e (List.mem_cons_of_mem _ he))
      simp only [List.length_cons, List.sum_cons]
      push_cast
      linarith

theorem exists_le_mean {l : List ℝ} (hne : l ≠ []) : ∃ e ∈ l, e ≤ mean l := by
  by_contra hcon
  push Not at hcon
  have h1 := sum_gt_of_forall hne hcon
  have hpos : (0 : ℝ) < l.length := by exact_mod_cast List.length_pos_iff.mpr hne
  unfold mean at h1
  rw [mul_div_cancel₀ _ hpos.ne'] at h1
  exact lt_irrefl _ h1

theorem count_mul_le {l : List ℝ} {c : ℝ} {p : ℝ → Bool} {g : ℝ → ℝ} (hg : ∀ e, 0 ≤ g e)
    (hp : ∀ e, p e = true → c ≤ g e) : ((l.filter p).length : ℝ) * c ≤ (l.map g).sum := by
  induction l with
  | nil => simp
  | cons a l ih =>
    by_cases ha : p a = true
    · have := hp a ha
      simp only [List.filter_cons, ha, if_true, List.length_cons, List.map_cons, List.sum_cons]
      push_cast
      linarith
    · have := hg a
      simp only [List.filter_cons, ha, List.map_cons, List.sum_cons]
      simp only [Bool.false_eq_true, if_false]
      linarith

theorem sum_eq_zero_of_nonneg {l : List ℝ} (h : ∀ e ∈ l, 0 ≤ e) (hs : l.sum = 0) : ∀ e ∈ l, e = 0 := by
  induction l with
  | nil => simp
  | cons a l ih =>
    have h1 := h a (List.mem_cons_self ..)
    have h2 : 0 ≤ l.sum := List.sum_nonneg fun e he => h e (List.mem_cons_of_mem _ he)
    rw [List.sum_cons] at hs
    intro e he
    rcases List.mem_cons.mp he with rfl | he
    · linarith
    · exact ih (fun e he => h e (List.mem_cons_of_mem _ he)) (by linarith) e he

theorem chebyshev (l : List ℝ) (s : ℝ) (hs : 0 ≤ s) :
    ((l.filter fun e => decide (e > mean l + s * sdev l)).length : ℝ) * s ^ 2 ≤ l.length := by
  by_cases hne : l = []
  · subst hne; simp
  have hpos : (0 : ℝ) < l.length := by exact_mod_cast List.length_pos_iff.mpr hne
  have hsum0 : 0 ≤ (l.map fun e => (e - mean l) ^ 2).sum :=
    List.sum_nonneg (by simp only [List.mem_map]; rintro _ ⟨e, -, rfl⟩; positivity)
  have hsd : sdev l ^ 2 * l.length = (l.map fun e => (e - mean l) ^ 2).sum := by
    unfold sdev
    rw [Real.sq_sqrt (by positivity)]
    field_simp
  have hsd0 : 0 ≤ sdev l := Real.sqrt_nonneg _
  rcases hsd0.eq_or_lt with h0 | hpos'
  · have hz : (l.map fun e => (e - mean l) ^ 2).sum = 0 := by rw [← hsd, ← h0]; simp
    have hall : ∀ e ∈ l, e = mean l := by
      intro e he
      have := sum_eq_zero_of_nonneg (l := l.map fun e => (e - mean l) ^ 2)
        (by simp only [List.mem_map]; rintro _ ⟨e, -, rfl⟩; positivity) hz
        ((e - mean l) ^ 2) (List.mem_map_of_mem (f := fun e => (e - mean l) ^ 2) he)
      have := pow_eq_zero_iff (two_ne_zero) |>.mp this
      linarith
    have : l.filter (fun e => decide (e > mean l + s * sdev l)) = [] := by
      rw [List.filter_eq_nil_iff]
      intro e he
      rw [← h0, mul_zero, add_zero]
      simp only [decide_eq_true_eq, not_lt, gt_iff_lt]
      exact (hall e he).le
    rw [this]
    simp
  · have := count_mul_le (l := l) (c := s ^ 2 * sdev l ^ 2)
      (p := fun e => decide (e > mean l + s * sdev l)) (g := fun e => (e - mean l) ^ 2)
      (fun e => by positivity) (fun e he => by
        have he' : e > mean l + s * sdev l := by simpa using he
        have h1 : s * sdev l ≤ e - mean l := by linarith
        have h2 : 0 ≤ s * sdev l := by positivity
        calc s ^ 2 * sdev l ^ 2 = (s * sdev l) ^ 2 := by ring
          _ ≤ (e - mean l) ^ 2 := by gcongr)
    rw [← hsd] at this
    have h3 : (((l.filter fun e => decide (e > mean l + s * sdev l)).length : ℝ) * s ^ 2) * sdev l ^ 2
        ≤ l.length * sdev l ^ 2 := by linarith
    exact le_of_mul_le_mul_right h3 (by positivity)

theorem withoutOutliers_indices (v : View) (opt : DetectorOptions) (project : T → P3 → P2) (x : T) :
    (v.withoutOutliers opt project x).indices =
      v.indices.filter (fun i => open Classical in !decide (v.Outlier opt project x i)) := by
  classical
  unfold View.indices View.withoutOutliers
  rw [List.filter_filter]
  apply List.filter_congr
  intro i _
  by_cases h : v.Outlier opt project x i <;> simp [h]

/-- **C90**: with a non-negative threshold the filter never removes all corners of an observation that
has any. -/
theorem C90_some_remain (opt : DetectorOptions) (hs : 0 ≤ opt.sigma) (project : T → P3 → P2)
    {o : Obs T} {v : View} (h : Rel o v) (hc : v.target.Complete) {x : T} (hx : o.pose = some x)
    (hne : ∃ i p, v.seen i = some p) :
    ∃ o' v', filterOutliers opt project o = .ok o' ∧ Rel o' v' ∧ ∃ i p, v'.seen i = some p := by
  obtain ⟨o', h1, -, h3⟩ := C90_filter opt project h hc hx
  refine ⟨o', _, h1, h3, ?_⟩
  obtain ⟨i, p, hp⟩ := hne
  have hi : i < v.target.size := by
    by_contra hcon
    rw [h.out i (by omega)] at hp
    cases hp
  have hmem : i ∈ v.indices := View.mem_indices.mpr ⟨hi, by simp [hp]⟩
  have hne : v.errors project x ≠ [] := by
    intro hnil
    simp [View.errors] at hnil
    rw [hnil] at hmem
    cases hmem
  obtain ⟨e, he, hle⟩ := exists_le_mean hne
  obtain ⟨k, hk, rfl⟩ := List.mem_map.mp he
  obtain ⟨q, hq⟩ := Option.isSome_iff_exists.mp (View.mem_indices.mp hk).2
  refine ⟨k, q, ?_⟩
  have hno : ¬ v.Outlier opt project x k := by
    rintro ⟨hgt, -⟩
    have : 0 ≤ opt.sigma * sdev (v.errors project x) := mul_nonneg hs (Real.sqrt_nonneg _)
    linarith
  simp [View.withoutOutliers, hno, hq]

/-- **C90**: the filter removes at most a share of `1 / sigma²` of the corners. -/
theorem C90_share (opt : DetectorOptions) (hs : 0 ≤ opt.sigma) (project : T → P3 → P2)
    {o : Obs T} {v : View} (h : Rel o v) (hc : v.target.Complete) {x : T} (hx : o.pose = some x) :
    ∃ o' n n', filterOutliers opt project o = .ok o' ∧ (∃ l, o.getCornersIdx = .ok (l, n)) ∧
      (∃ l, o'.getCornersIdx = .ok (l, n')) ∧ n' ≤ n ∧ ((n - n' : ℕ) : ℝ) * opt.sigma ^ 2 ≤ n := by
  classical
  obtain ⟨o', h1, -, h3⟩ := C90_filter opt project h hc hx
  refine ⟨o', _, _, h1, ⟨_, h.idx⟩, ⟨_, h3.idx⟩, ?_, ?_⟩
  · rw [withoutOutliers_indices]
    exact List.length_filter_le ..
  · rw [withoutOutliers_indices]
    set p : ℕ → Bool := fun i => decide (v.Outlier opt project x i) with hp
    have e1 : v.indices.length = (v.indices.filter p).length +
        (v.indices.filter fun i => !p i).length := by
      rw [List.length_eq_countP_add_countP p, List.countP_eq_length_filter,
        List.countP_eq_length_filter]
      simp
    have e2 : v.indices.length - (v.indices.filter fun i => !p i).length =
        (v.indices.filter p).length := by omega
    have e3 := chebyshev (v.errors project x) opt.sigma hs
    have e4 : (v.indices.filter p).length ≤ ((v.errors project x).filter fun e =>
        decide (e > mean (v.errors project x) + opt.sigma * sdev (v.errors project x))).length := by
      conv_rhs => rw [View.errors, List.filter_map, List.length_map]
      rw [← List.countP_eq_length_filter, ← List.countP_eq_length_filter]
      apply List.countP_mono_left
      intro i _ hi
      have : v.Outlier opt project x i := by simpa [hp] using hi
      simpa [View.errors] using this.1
    have e5 : ((v.indices.length - (v.indices.filter fun i => !p i).length : ℕ) : ℝ) ≤
        (((v.errors project x).filter fun e =>
          decide (e > mean (v.errors project x) + opt.sigma * sdev (v.errors project x))).length : ℝ) :=
      by rw [e2]; exact_mod_cast e4
    have e6 : (v.errors project x).length = v.indices.length := by simp [View.errors]
    rw [e6] at e3
    exact (mul_le_mul_of_nonneg_right e5 (by positivity)).trans e3

/-! ## C91: `findTarget` -/

/-- What the corner extraction reported: for every index the image point, if flagged. -/
def extractedView (t : Target) (pts : List P2) (flags : List Bool) : View :=
  ⟨t, fun i => if flags[i]? = some true then pts[i]? else none⟩

/-- The shape of a result of the corner extraction: no rows, or one per target point. -/
def ExtractionShape (t : Target) (pts : List P2) (flags : List Bool) : Prop :=
  flags.length = pts.length ∧ (pts.length = 0 ∨ pts.length = t.size)

theorem findTargetNoTransformation_ok (t : Target) (ok : Bool) (pts : List P2) (flags : List Bool)
    (hs : ExtractionShape t pts flags) (o : Obs T) :
    ∃ o', findTargetNoTransformation t (ok, pts, flags) o = .ok (ok, o') ∧
      Rel o' (extractedView t pts flags) ∧ o'.pose = o.pose := by
  obtain ⟨o1, h1, hr1, hp1⟩ := rel_new t o
  have hle : pts.length ≤ t.size := by rcases hs.2 with h | h <;> omega
  obtain ⟨o2, h2, hr2, hp2⟩ := foldlM_range_inv (n := pts.length) (s := o1)
    (f := fun (o : Obs T) i => do
      if ← readAt flags i then
        let p ← readAt pts i
        o.updateImagePoint i p
      else .ok o)
    (P := fun k o' => Rel o' ⟨t, fun i => if i < k ∧ flags[i]? = some true then pts[i]? else none⟩ ∧
      o'.pose = o.pose) ⟨by simpa using hr1, hp1⟩ (by
    rintro k hk o' ⟨hr, hp⟩
    have hkf : k < flags.length := by rw [hs.1]; exact hk
    rw [readAt_ok hkf, readAt_ok hk]
    simp only [Out.ok_bind]
    by_cases hf : flags[k] = true
    · obtain ⟨o3, h3, hp3, hr3⟩ := rel_update hr (i := k) (by show k < t.size; omega) pts[k]
      refine ⟨o3, by rw [if_pos hf, h3], ?_, by rw [hp3, hp]⟩
      convert hr3 using 2
      funext j
      by_cases hj : j = k
      · subst hj
        simp [hf, hk, hkf]
      · rw [Function.update_of_ne hj]
        have : j < k + 1 ↔ j < k := by omega
        simp only [this]
    · refine ⟨o', by rw [if_neg hf], ?_, hp⟩
      convert hr using 2
      funext j
      by_cases hj : j = k
      · subst hj
        simp [List.getElem?_eq_getElem hkf, hf]
      · have : j < k + 1 ↔ j < k := by omega
        simp only [this])
  refine ⟨o2, ?_, ?_, hp2⟩
  · unfold findTargetNoTransformation
    rw [h1]
    simp only [Out.ok_bind]
    rw [h2]
    rfl
  · convert hr2 using 2
    · rfl
    funext i
    simp only [extractedView]
    by_cases hi : i < pts.length
    · simp [hi]
    · have : flags[i]? = none := by rw [List.getElem?_eq_none_iff]; rw [hs.1]; omega
      simp [this]

/-- **C91** (partial): whatever the observation held before, after `findTarget` its corners are exactly
those the extraction flagged, with the points the extraction gave, less the outliers if the filter is on
and the call succeeded.  The call succeeds exactly when the extraction succeeded and a pose was
estimated, and then the pose is the estimate.  When it fails the pose is left as it was; the full
property asks for no pose in this case. -/
theorem C91_find_partial (opt : DetectorOptions) (t : Target) (hc : t.Complete) (ok : Bool)
    (pts : List P2) (flags : List Bool) (hs : ExtractionShape t pts flags)
    (estimate : Obs T → Option T) (project : T → P3 → P2) (o : Obs T) :
    ∃ r o' oc, findTarget opt t (ok, pts, flags) estimate project o = .ok (r, o') ∧
      Rel oc (extractedView t pts flags) ∧
      (r = true ↔ ok = true ∧ (estimate oc).isSome) ∧
      (r = true → o'.pose = estimate oc) ∧
      (r = false → o'.pose = o.pose ∧ Rel o' (extractedView t pts flags)) ∧
      (r = true → opt.filterCornerOutliers = false → Rel o' (extractedView t pts flags)) ∧
      (r = true → opt.filterCornerOutliers = true → ∃ x, estimate oc = some x ∧
        Rel o' ((extractedView t pts flags).withoutOutliers opt project x)) := by
  obtain ⟨oc, h1, hr, hp⟩ := findTargetNoTransformation_ok t ok pts flags hs o
  unfold findTarget
  rw [h1]
  simp only [Out.ok_bind]
  cases ok with
  | false =>
    exact ⟨false, oc, oc, rfl, hr, by simp, by simp, fun _ => ⟨hp, hr⟩, by simp, by simp⟩
  | true =>
    cases he : estimate oc with
    | none =>
      exact ⟨false, oc, oc, by simp [he], hr, by simp [he], by simp, fun _ => ⟨hp, hr⟩,
        by simp, by simp⟩
    | some x =>
      have hrx : Rel { oc with pose := some x } (extractedView t pts flags) :=
        ⟨hr.target, hr.lp, hr.ls, hr.succ, hr.pt, hr.out⟩
      cases hf : opt.filterCornerOutliers with
      | false =>
        exact ⟨true, _, oc, by simp [he], hr, by simp [he], fun _ => he.symm, by simp,
          fun _ _ => hrx, by simp⟩
      | true =>
        obtain ⟨o', h2, hp2, hr2⟩ := C90_filter opt project hrx hc (x := x) rfl
        exact ⟨true, o', oc, by simp [he, h2], hr, by simp [he], fun _ => by rw [hp2, he],
          by simp, by simp, fun _ _ => ⟨x, he, hr2⟩⟩

example : ∃ (t : Target) (pts : List P2) (flags : List Bool), t.Complete ∧
    ExtractionShape t pts flags ∧ pts ≠ [] :=
  ⟨⟨1, 2, [(0, 0, 0), (1, 0, 0)]⟩, [(3, 4), (5, 6)], [true, false], rfl, ⟨rfl, Or.inr rfl⟩, by simp⟩

/-- **C91** fails: an observation that is reused keeps the pose of an earlier image although the target
was not found in the current one. -/
theorem C91_stale_pose_counterexample : ∃ (opt : DetectorOptions) (t : Target) (project : Unit → P3 → P2)
    (o o1 o2 : Obs Unit), Obs.new (some t) = .ok o ∧
    findTarget opt t (true, [(3, 4)], [true]) (fun _ => some ()) project o = .ok (true, o1) ∧
    findTarget opt t (false, [], []) (fun _ => none) project o1 = .ok (false, o2) ∧
    o2.pose = some () := by
  set t : Target := ⟨1, 1, [(0, 0, 0)]⟩ with ht
  have hc : t.Complete := rfl
  obtain ⟨o, ho, -⟩ := rel_new (T := Unit) t ⟨none, [], [], none⟩
  obtain ⟨r, o1, oc, h1, -, hr, hp, -⟩ := C91_find_partial ⟨false, 2, 0⟩ t hc true [(3, 4)] [true]
    ⟨rfl, Or.inr rfl⟩ (fun _ : Obs Unit => some ()) (fun _ _ => (0, 0)) o
  obtain ⟨r2, o2, oc2, h2, -, hr2, -, hp2, -⟩ := C91_find_partial ⟨false, 2, 0⟩ t hc false [] []
    ⟨rfl, Or.inl rfl⟩ (fun _ : Obs Unit => none) (fun _ _ => (0, 0)) o1
  have e1 : r = true := hr.mpr (by simp)
  have e2 : r2 = false := by
    cases r2
    · rfl
    · exact absurd (hr2.mp rfl).1 (by simp)
  subst e1 e2
  exact ⟨⟨false, 2, 0⟩, t, fun _ _ => (0, 0), o, o1, o2, ho, h1, h2, by rw [(hp2 rfl).1, hp rfl]⟩

end Kalibr.Target
