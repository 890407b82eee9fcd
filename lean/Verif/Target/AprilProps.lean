import Verif.Target.DetectProps
import Mathlib.Tactic.FinCases

/-!
# Properties of the April grid extraction (C89)
-/

namespace Kalibr.Target

open Kalibr

/-! ## Specification -/

/-- Horizontal and vertical offset, in tag sizes, of the four corners of a tag in the order in which the
tag detector lists them: counter-clockwise from the lower left. -/
def dx : Fin 4 → ℕ := ![0, 1, 1, 0]
def dy : Fin 4 → ℕ := ![0, 0, 1, 1]

/-- Position in the target frame of corner `j` of tag `id` of a grid with `C` tags per row. -/
noncomputable def tagCorner (C : ℕ) (a s : ℝ) (id : ℕ) (j : Fin 4) : P3 :=
  (((id % C : ℕ) : ℝ) * (1 + s) * a + dx j * a, ((id / C : ℕ) : ℝ) * (1 + s) * a + dy j * a, 0)

/-- A detection is usable when it is good, its identifier is on the board and its corners keep the
distance from the image border. -/
def Det.Usable (o : AprilOptions) (W H : ℝ) (numTags : ℕ) (d : Det) : Prop :=
  d.good = true ∧ d.id < numTags ∧
  ∀ j, o.minBorderDistance ≤ (d.p j).1 ∧ (d.p j).1 ≤ W - o.minBorderDistance ∧
    o.minBorderDistance ≤ (d.p j).2 ∧ (d.p j).2 ≤ H - o.minBorderDistance

/-- The reported corner: refined when the option is set. -/
def corner (o : AprilOptions) (refine : P2 → P2) (p : P2) : P2 :=
  if o.doSubpixRefinement then refine p else p

/-- A corner is accepted when refinement moved it by at most the permitted distance. -/
def Accepted (o : AprilOptions) (refine : P2 → P2) (p : P2) : Prop :=
  ((corner o refine p).1 - p.1) ^ 2 + ((corner o refine p).2 - p.2) ^ 2 ≤ o.maxSubpixDisplacement2

open Classical in
/-- The usable detections. -/
noncomputable def usable (o : AprilOptions) (W H : ℝ) (numTags : ℕ) (dets : List Det) : List Det :=
  dets.filter fun d => d.Usable o W H numTags

/-! ## Lemmas -/

theorem not_removed_iff (o : AprilOptions) (W H : ℝ) (n : ℕ) (d : Det) :
    ¬ d.removed o W H n ↔ d.Usable o W H n := by
  unfold Det.removed Det.Usable
  push Not
  constructor
  · rintro ⟨h1, h2, h3⟩
    exact ⟨h2, h3, h1⟩
  · rintro ⟨h1, h2, h3⟩
    exact ⟨h3, h1, h2⟩

theorem cornerIdx_eq {C : ℕ} (id : ℕ) (j : Fin 4) :
    cornerIdx (2 * C) id j = 2 * C * (2 * (id / C) + dy j) + (2 * (id % C) + dx j) := by
  have h : 2 * C / 2 = C := by omega
  unfold cornerIdx
  rw [h]
  fin_cases j <;> simp [dx, dy] <;> ring

theorem dx_lt (j : Fin 4) : dx j < 2 := by fin_cases j <;> decide
theorem dy_lt (j : Fin 4) : dy j < 2 := by fin_cases j <;> decide
theorem dxy_inj {i j : Fin 4} (h1 : dx i = dx j) (h2 : dy i = dy j) : i = j := by
  revert h1 h2; revert i j; decide

theorem cornerIdx_inj {C id id' : ℕ} {j j' : Fin 4} (hC : 0 < C)
    (h : cornerIdx (2 * C) id j = cornerIdx (2 * C) id' j') : id = id' ∧ j = j' := by
  rw [cornerIdx_eq, cornerIdx_eq] at h
  have l1 := dx_lt j
  have l2 := dx_lt j'
  have l3 := dy_lt j
  have l4 := dy_lt j'
  have m1 := Nat.mod_lt id hC
  have m2 := Nat.mod_lt id' hC
  obtain ⟨e1, e2⟩ := idx_inj (by omega) (by omega) h
  have q1 : id / C = id' / C := by omega
  have q2 : id % C = id' % C := by omega
  refine ⟨?_, dxy_inj (by omega) (by omega)⟩
  rw [← Nat.div_add_mod id C, ← Nat.div_add_mod id' C, q1, q2]

theorem cornerIdx_lt {R C id : ℕ} (h : id < R * C) (j : Fin 4) :
    cornerIdx (2 * C) id j < 2 * R * (2 * C) := by
  have hC : 0 < C := by
    rcases Nat.eq_zero_or_pos C with h0 | h0
    · subst h0; simp at h
    · exact h0
  rw [cornerIdx_eq]
  have l1 := dx_lt j
  have l3 := dy_lt j
  have m1 := Nat.mod_lt id hC
  have : id / C < R := by rw [Nat.div_lt_iff_lt_mul hC]; exact h
  exact idx_lt (by omega) (by omega)

open Classical in
theorem writeTag_ok (o : AprilOptions) (refine' : P2 → P2) {R C : ℕ} (s : List P2 × List Bool) (d : Det)
    (h1 : s.1.length = 2 * R * (2 * C)) (h2 : s.2.length = 2 * R * (2 * C)) (h0 : 0 ≤ d.id)
    (hid : d.id.toNat < R * C) :
    ∃ s', writeTag o (2 * C) refine' s d = .ok s' ∧ s'.1.length = 2 * R * (2 * C) ∧
      s'.2.length = 2 * R * (2 * C) ∧
      (∀ j, s'.1[cornerIdx (2 * C) d.id.toNat j]? = some (corner o refine' (d.p j)) ∧
        s'.2[cornerIdx (2 * C) d.id.toNat j]? = some (decide (Accepted o refine' (d.p j)))) ∧
      ∀ k, (∀ j, k ≠ cornerIdx (2 * C) d.id.toNat j) → s'.1[k]? = s.1[k]? ∧ s'.2[k]? = s.2[k]? := by
  have hC : 0 < C := by
    rcases Nat.eq_zero_or_pos C with h0 | h0
    · subst h0; simp at hid
    · exact h0
  have hlt := fun j => cornerIdx_lt hid j
  have hne : ∀ i j, i ≠ j → cornerIdx (2 * C) d.id.toNat i ≠ cornerIdx (2 * C) d.id.toNat j :=
    fun i j hij h => hij (cornerIdx_inj hC h).2
  have hacc : ∀ p, (decide (((if o.doSubpixRefinement then refine' p else p).1 - p.1) *
      ((if o.doSubpixRefinement then refine' p else p).1 - p.1) +
      ((if o.doSubpixRefinement then refine' p else p).2 - p.2) *
      ((if o.doSubpixRefinement then refine' p else p).2 - p.2) ≤ o.maxSubpixDisplacement2)) =
      decide (Accepted o refine' p) := by
    intro p
    simp only [Accepted, corner, pow_two]
  have hrange : List.finRange 4 = [0, 1, 2, 3] := by decide
  generalize hk : cornerIdx (2 * C) d.id.toNat = k at hlt hne ⊢
  have hw : writeTag o (2 * C) refine' s d = .ok
      ((((s.1.set (k 0) (corner o refine' (d.p 0))).set (k 1) (corner o refine' (d.p 1))).set
        (k 2) (corner o refine' (d.p 2))).set (k 3) (corner o refine' (d.p 3)),
       (((s.2.set (k 0) (decide (Accepted o refine' (d.p 0)))).set
        (k 1) (decide (Accepted o refine' (d.p 1)))).set
        (k 2) (decide (Accepted o refine' (d.p 2)))).set (k 3)
        (decide (Accepted o refine' (d.p 3)))) := by
    unfold writeTag
    rw [if_neg (not_lt.mpr h0), hrange]
    simp only [List.foldlM_cons, List.foldlM_nil, hk, hacc]
    rw [writeAt_ok (by rw [h1]; exact hlt 0), writeAt_ok (by rw [h2]; exact hlt 0)]
    simp only [Out.ok_bind]
    rw [writeAt_ok (by simp only [List.length_set]; rw [h1]; exact hlt 1),
      writeAt_ok (by simp only [List.length_set]; rw [h2]; exact hlt 1)]
    simp only [Out.ok_bind]
    rw [writeAt_ok (by simp only [List.length_set]; rw [h1]; exact hlt 2),
      writeAt_ok (by simp only [List.length_set]; rw [h2]; exact hlt 2)]
    simp only [Out.ok_bind]
    rw [writeAt_ok (by simp only [List.length_set]; rw [h1]; exact hlt 3),
      writeAt_ok (by simp only [List.length_set]; rw [h2]; exact hlt 3)]
    rfl
  refine ⟨_, hw, by simpa using h1, by simpa using h2, ?_, ?_⟩
  · intro j
    have l1 : ∀ j, k j < s.1.length := fun j => by rw [h1]; exact hlt j
    have l2 : ∀ j, k j < s.2.length := fun j => by rw [h2]; exact hlt j
    fin_cases j
    · simp [List.getElem?_set, hne 1 0 (by decide), hne 2 0 (by decide), hne 3 0 (by decide), l1, l2]
    · simp [List.getElem?_set, hne 2 1 (by decide), hne 3 1 (by decide), l1, l2]
    · simp [List.getElem?_set, hne 3 2 (by decide), l1, l2]
    · simp [List.getElem?_set, l1, l2]
  · intro i hi
    have e := fun j => (hi j).symm
    simp [List.getElem?_set, e]

open Classical in
theorem writeTags_ok (o : AprilOptions) (refine' : P2 → P2) {R C : ℕ} (l : List Det)
    (s : List P2 × List Bool) (h1 : s.1.length = 2 * R * (2 * C)) (h2 : s.2.length = 2 * R * (2 * C))
    (h0 : ∀ d ∈ l, 0 ≤ d.id ∧ d.id.toNat < R * C) (hnd : (l.map Det.id).Nodup) :
    ∃ s', l.foldlM (writeTag o (2 * C) refine') s = .ok s' ∧ s'.1.length = 2 * R * (2 * C) ∧
      s'.2.length = 2 * R * (2 * C) ∧
      (∀ d ∈ l, ∀ j, s'.1[cornerIdx (2 * C) d.id.toNat j]? = some (corner o refine' (d.p j)) ∧
        s'.2[cornerIdx (2 * C) d.id.toNat j]? = some (decide (Accepted o refine' (d.p j)))) ∧
      ∀ k, (∀ d ∈ l, ∀ j, k ≠ cornerIdx (2 * C) d.id.toNat j) →
        s'.1[k]? = s.1[k]? ∧ s'.2[k]? = s.2[k]? := by
  induction l generalizing s with
  | nil => exact ⟨s, rfl, h1, h2, by simp, by simp⟩
  | cons d l ih =>
    obtain ⟨hd0, hdl⟩ := h0 d (List.mem_cons_self ..)
    obtain ⟨s1, e1, a1, a2, a3, a4⟩ := writeTag_ok o refine' s d h1 h2 hd0 hdl
    rw [List.map_cons, List.nodup_cons] at hnd
    obtain ⟨s2, e2, b1, b2, b3, b4⟩ := ih s1 a1 a2 (fun d hd => h0 d (List.mem_cons_of_mem _ hd)) hnd.2
    refine ⟨s2, by rw [List.foldlM_cons, e1]; exact e2, b1, b2, ?_, ?_⟩
    · intro d' hd' j
      rcases List.mem_cons.mp hd' with rfl | hd'
      · have hC : 0 < C := by
          rcases Nat.eq_zero_or_pos C with h0 | h0
          · subst h0; simp at hdl
          · exact h0
        have := b4 (cornerIdx (2 * C) d'.id.toNat j) (by
          intro d'' hd'' j' heq
          have h3 := (cornerIdx_inj hC heq).1
          have h4 := (h0 d'' (List.mem_cons_of_mem _ hd'')).1
          apply hnd.1
          have : d'.id = d''.id := by omega
          rw [this]
          exact List.mem_map_of_mem hd'')
        rw [this.1, this.2]
        exact a3 j
      · exact b3 d' hd' j
    · intro k hk
      obtain ⟨c1, c2⟩ := b4 k (fun d' hd' => hk d' (List.mem_cons_of_mem _ hd'))
      obtain ⟨c3, c4⟩ := a4 k (hk d (List.mem_cons_self ..))
      exact ⟨c1.trans c3, c2.trans c4⟩

theorem hasDup_iff {l : List Det} (h : l.Pairwise fun a b => a.id ≤ b.id) :
    hasDup l = true ↔ ¬ (l.map Det.id).Nodup := by
  induction l with
  | nil => simp [hasDup]
  | cons a l ih =>
    rw [List.pairwise_cons] at h
    cases l with
    | nil => simp [hasDup]
    | cons b l =>
      have ih := ih h.2
      rw [hasDup, Bool.or_eq_true, ih, decide_eq_true_eq]
      change _ ↔ ¬ (a.id :: (b :: l).map Det.id).Nodup
      rw [List.nodup_cons (a := a.id)]
      constructor
      · rintro (h1 | h1) ⟨h2, h3⟩
        · exact h2 (by rw [h1]; simp)
        · exact h1 h3
      · intro h1
        by_cases hab : a.id = b.id
        · exact Or.inl hab
        · refine Or.inr fun h3 => h1 ⟨?_, h3⟩
          intro hm
          obtain ⟨c, hc, he⟩ := List.mem_map.mp hm
          have hle := h.1 b (List.mem_cons_self ..)
          rcases List.mem_cons.mp hc with rfl | hc
          · exact hab he.symm
          · have := (List.pairwise_cons.mp h.2).1 c hc
            omega

open Classical in
/-- The result of the extraction for any content of the output arguments. -/
theorem aprilObservation_ok {R C : ℕ} {t : Target} (hrows : t.rows = 2 * R) (hcols : t.cols = 2 * C)
    (o : AprilOptions) (W H : ℝ) (refine' : P2 → P2) (dets : List Det)
    (hid : ∀ d ∈ dets, d.good = true → 0 ≤ d.id) (pts0 : List P2) (hp0 : pts0.length = t.size)
    (flags0 : List Bool) :
    ∃ res, aprilObservation t o W H refine' dets pts0 flags0 = .ok res ∧
      (res = .failed ↔ (usable o W H (R * C) dets).length < o.minTagsForValidObs) ∧
      (res = .exit ↔ ¬ (usable o W H (R * C) dets).length < o.minTagsForValidObs ∧
        ¬ ((usable o W H (R * C) dets).map Det.id).Nodup) ∧
      ∀ pts obs, res = .done pts obs → pts.length = t.size ∧ obs.length = t.size ∧
        (∀ d ∈ usable o W H (R * C) dets, ∀ j,
          pts[cornerIdx (2 * C) d.id.toNat j]? = some (corner o refine' (d.p j)) ∧
          obs[cornerIdx (2 * C) d.id.toNat j]? = some (decide (Accepted o refine' (d.p j)))) ∧
        ∀ k, (∀ d ∈ usable o W H (R * C) dets, ∀ j, k ≠ cornerIdx (2 * C) d.id.toNat j) →
          obs[k]? = (resizeFlags flags0 t.size)[k]? := by
  have hsize : t.size = 2 * R * (2 * C) := by rw [Target.size, hrows, hcols]
  have hquot : t.size / 4 = R * C := by
    rw [hsize, show 2 * R * (2 * C) = 4 * (R * C) by ring]
    omega
  have hkept : (dets.filter fun d => decide ¬ d.removed o W H (t.size / 4)) =
      usable o W H (R * C) dets := by
    unfold usable
    rw [hquot]
    apply List.filter_congr
    intro d _
    simp only [not_removed_iff]
  unfold aprilObservation
  simp only [hkept]
  set kept := usable o W H (R * C) dets with hk
  by_cases hlen : kept.length < o.minTagsForValidObs
  · refine ⟨.failed, by simp [hlen], by simp [hlen], by simp [hlen], by simp⟩
  · have hperm := List.mergeSort_perm kept (fun a b => decide (a.id ≤ b.id))
    have hsorted : (kept.mergeSort (fun a b => decide (a.id ≤ b.id))).Pairwise
        fun a b => a.id ≤ b.id := by
      have := List.pairwise_mergeSort (le := fun a b : Det => decide (a.id ≤ b.id))
        (fun a b c h1 h2 => by simp at h1 h2 ⊢; omega) (fun a b => by simp; omega) kept
      simpa using this
    set sorted := kept.mergeSort (fun a b => decide (a.id ≤ b.id)) with hs
    have hdup := hasDup_iff hsorted
    have hnd : (sorted.map Det.id).Nodup ↔ (kept.map Det.id).Nodup :=
      (hperm.map Det.id).nodup_iff
    rw [hnd] at hdup
    by_cases hd : (kept.map Det.id).Nodup
    · have hf : hasDup sorted = false := by
        rw [← Bool.not_eq_true, hdup]
        exact not_not.mpr hd
      have hmem : ∀ d, d ∈ sorted ↔ d ∈ kept := fun d => hperm.mem_iff
      have hprop : ∀ d ∈ sorted, 0 ≤ d.id ∧ d.id.toNat < R * C := by
        intro d hd
        have := (hmem d).mp hd
        rw [hk, usable, List.mem_filter, decide_eq_true_eq] at this
        have h0 := hid d this.1 this.2.1
        have h1 := this.2.2.1
        exact ⟨h0, by omega⟩
      obtain ⟨s', e1, a1, a2, a3, a4⟩ := writeTags_ok o refine' (R := R) (C := C) sorted
        (pts0, resizeFlags flags0 t.size) (by rw [← hsize]; exact hp0)
        (by rw [← hsize]; simp [resizeFlags]; omega) hprop (hnd.mpr hd)
      refine ⟨.done s'.1 s'.2, ?_, by simp [hlen], by simp [hd], ?_⟩
      · rw [if_neg hlen, hf]
        simp only [Bool.false_eq_true, if_false, hcols, e1, Out.ok_bind]
      · rintro pts obs he
        injection he with h1 h2
        subst h1 h2
        refine ⟨by rw [a1, hsize], by rw [a2, hsize], ?_, ?_⟩
        · intro d hd
          exact a3 d ((hmem d).mpr hd)
        · intro k hk
          exact (a4 k fun d hd => hk d ((hmem d).mp hd)).2
    · have hf : hasDup sorted = true := hdup.mpr hd
      refine ⟨.exit, by simp [hlen, hf], by simp [hlen], by simp [hlen, hd], by simp⟩

/-! ## C89 -/

open Classical in
/-- **C89** (partial, the caller passes an empty vector of flags): on a board of `R` times `C` tags, for all detections whose good ones have an identifier,
the extraction fails exactly when there are fewer usable detections than required, ends the process
exactly when two usable detections have the same identifier, and otherwise: every corner of every usable
detection is stored at the index of the target point at which that corner of that tag lies, and is
flagged exactly when it is accepted; and no other target point is flagged. -/
theorem C89_extraction_partial {R C : ℕ} {a s : ℝ} {mem : List P3} {t : Target}
    (hm : mem.length = 2 * R * (2 * C)) (ht : aprilgrid R C a s mem = .ok t)
    (o : AprilOptions) (W H : ℝ) (refine' : P2 → P2) (dets : List Det)
    (hid : ∀ d ∈ dets, d.good = true → 0 ≤ d.id) (pts0 : List P2) (hp0 : pts0.length = t.size) :
    ∃ res, aprilObservation t o W H refine' dets pts0 [] = .ok res ∧
      (res = .failed ↔ (usable o W H (R * C) dets).length < o.minTagsForValidObs) ∧
      (res = .exit ↔ ¬ (usable o W H (R * C) dets).length < o.minTagsForValidObs ∧
        ¬ ((usable o W H (R * C) dets).map Det.id).Nodup) ∧
      ∀ pts obs, res = .done pts obs → pts.length = t.size ∧ obs.length = t.size ∧
        (∀ d ∈ usable o W H (R * C) dets, ∀ j, ∃ k, k < t.size ∧
          t.point k = .ok (tagCorner C a s d.id.toNat j) ∧
          pts[k]? = some (corner o refine' (d.p j)) ∧
          obs[k]? = some (decide (Accepted o refine' (d.p j)))) ∧
        ∀ k, obs[k]? = some true → ∃ d ∈ usable o W H (R * C) dets, ∃ j,
          t.point k = .ok (tagCorner C a s d.id.toNat j) ∧ Accepted o refine' (d.p j) := by
  obtain ⟨g1, g2⟩ := C88_aprilgrid R C a s mem hm
  by_cases hab : 0 < a ∧ 0 < s
  · obtain ⟨t', ht', hrows, hcols, hl, hpos⟩ := g1 hab
    rw [ht] at ht'
    injection ht' with e
    subst e
    have hsize : t.size = 2 * R * (2 * C) := by rw [Target.size, hrows, hcols]
    obtain ⟨res, h1, h2, h3, h4⟩ := aprilObservation_ok hrows hcols o W H refine' dets hid pts0 hp0 []
    refine ⟨res, h1, h2, h3, ?_⟩
    intro pts obs he
    obtain ⟨l1, l2, w1, w2⟩ := h4 pts obs he
    have hplace : ∀ d ∈ usable o W H (R * C) dets, ∀ j,
        cornerIdx (2 * C) d.id.toNat j < t.size ∧
        t.point (cornerIdx (2 * C) d.id.toNat j) = .ok (tagCorner C a s d.id.toNat j) := by
      intro d hd j
      rw [usable, List.mem_filter, decide_eq_true_eq] at hd
      have h0 := hid d hd.1 hd.2.1
      have hlt' := hd.2.2.1
      have hlt : d.id.toNat < R * C := by omega
      refine ⟨by rw [hsize]; exact cornerIdx_lt hlt j, ?_⟩
      have hC : 0 < C := by
        rcases Nat.eq_zero_or_pos C with h0 | h0
        · subst h0; simp at hlt
        · exact h0
      have := hpos (d.id.toNat / C) (d.id.toNat % C) (dy j) (dx j)
        (by rw [Nat.div_lt_iff_lt_mul hC]; exact hlt) (Nat.mod_lt _ hC) (dy_lt j) (dx_lt j)
      rw [C58_grid_point, Target.gridCoordinatesToPoint, hcols] at this
      rw [cornerIdx_eq, this]
      rfl
    refine ⟨l1, l2, ?_, ?_⟩
    · intro d hd j
      exact ⟨_, (hplace d hd j).1, (hplace d hd j).2, w1 d hd j⟩
    · intro k hk
      by_contra hcon
      have hno : ∀ d ∈ usable o W H (R * C) dets, ∀ j, k ≠ cornerIdx (2 * C) d.id.toNat j ∨
          ¬ Accepted o refine' (d.p j) := by
        intro d hd j
        by_contra h5
        push Not at h5
        exact hcon ⟨d, hd, j, by rw [h5.1]; exact (hplace d hd j).2, h5.2⟩
      by_cases hex : ∃ d ∈ usable o W H (R * C) dets, ∃ j, k = cornerIdx (2 * C) d.id.toNat j
      · obtain ⟨d, hd, j, rfl⟩ := hex
        rcases hno d hd j with h5 | h5
        · exact h5 rfl
        · rw [(w1 d hd j).2] at hk
          simp [h5] at hk
      · push Not at hex
        rw [w2 k hex] at hk
        simp only [resizeFlags, List.take_nil, List.nil_append, List.length_nil,
          List.getElem?_replicate] at hk
        split at hk <;> simp at hk
  · rw [g2 hab] at ht
    cases ht

/-- A detection of tag 0 well inside an image of 100 by 100 pixels. -/
noncomputable def sampleDet : Det := ⟨0, true, ![(20, 20), (30, 20), (30, 30), (20, 30)]⟩

/-- Options requiring one tag, four pixels from the border. -/
noncomputable def sampleOpt : AprilOptions := ⟨4, 1, 2, false⟩

theorem sample_usable : sampleDet.Usable sampleOpt 100 100 2 := by
  refine ⟨rfl, by norm_num [sampleDet], ?_⟩
  intro j
  fin_cases j <;> norm_num [sampleDet, sampleOpt]

theorem sample_list : usable sampleOpt 100 100 2 [sampleDet] = [sampleDet] := by
  classical
  simp [usable, sample_usable]

/-- The hypotheses of `C89_extraction_partial` are met with a usable detection and a result that is neither a
failure nor an exit. -/
example : ∃ (mem : List P3) (t : Target) (pts0 : List P2), mem.length = 2 * 1 * (2 * 2) ∧
    aprilgrid 1 2 1 1 mem = .ok t ∧ pts0.length = t.size ∧
    (∀ d ∈ [sampleDet], d.good = true → 0 ≤ d.id) ∧
    ¬ (usable sampleOpt 100 100 (1 * 2) [sampleDet]).length < sampleOpt.minTagsForValidObs ∧
    ((usable sampleOpt 100 100 (1 * 2) [sampleDet]).map Det.id).Nodup := by
  obtain ⟨t, ht, hr, hc, -⟩ := (C88_aprilgrid 1 2 1 1 (List.replicate 8 (0, 0, 0)) (by simp)).1
    ⟨one_pos, one_pos⟩
  refine ⟨List.replicate 8 (0, 0, 0), t, List.replicate 8 (0, 0), by simp, ht, ?_, ?_, ?_, ?_⟩
  · simp [Target.size, hr, hc]
  · simp [sampleDet]
  · rw [one_mul, sample_list]; simp [sampleOpt]
  · rw [one_mul, sample_list]; simp

/-- **C89** fails when the caller reuses the vector of flags: on a board of two tags with only tag 0
detected, the lower left corner of tag 1 stays flagged as observed. -/
theorem C89_stale_flags_counterexample : ∃ (mem : List P3) (t : Target) (pts0 pts : List P2)
    (flags0 obs : List Bool), aprilgrid 1 2 1 1 mem = .ok t ∧
    aprilObservation t sampleOpt 100 100 id [sampleDet] pts0 flags0 = .ok (.done pts obs) ∧
    t.point 2 = .ok (tagCorner 2 1 1 1 0) ∧ obs[2]? = some true := by
  obtain ⟨t, ht, hr, hc, -, hpos⟩ := (C88_aprilgrid 1 2 1 1 (List.replicate 8 (0, 0, 0)) (by simp)).1
    ⟨one_pos, one_pos⟩
  have hsize : t.size = 8 := by simp [Target.size, hr, hc]
  obtain ⟨res, h1, h2, h3, h4⟩ := aprilObservation_ok (R := 1) (C := 2) hr hc sampleOpt 100 100 id
    [sampleDet] (by simp [sampleDet]) (List.replicate 8 (0, 0)) (by simp [hsize])
    (List.replicate 8 true)
  rw [one_mul, sample_list] at h2 h3 h4
  have hres : ∃ pts obs, res = .done pts obs := by
    cases res with
    | exit => exact absurd (h3.mp rfl).2 (by simp)
    | failed => exact absurd (h2.mp rfl) (by simp [sampleOpt])
    | done pts obs => exact ⟨pts, obs, rfl⟩
  obtain ⟨pts, obs, rfl⟩ := hres
  refine ⟨_, t, _, pts, _, obs, ht, h1, ?_, ?_⟩
  · have := hpos 0 1 0 0 (by norm_num) (by norm_num) (by norm_num) (by norm_num)
    rw [C58_grid_point, Target.gridCoordinatesToPoint, hc] at this
    simpa [tagCorner, dx, dy] using this
  · rw [(h4 pts obs rfl).2.2.2 2]
    · simp [resizeFlags, hsize]
    · intro d hd j
      simp at hd
      subst hd
      fin_cases j <;> simp [cornerIdx, sampleDet]

end Kalibr.Target
