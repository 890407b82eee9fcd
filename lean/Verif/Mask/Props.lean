import Verif.Mask.Model
import Mathlib.Algebra.BigOperators.Group.Finset.Piecewise
import Mathlib.Data.Finset.Prod

/-!
# C155: image masks and the overlap of two fields of view
-/

namespace Kalibr.Mask

open scoped Classical in
/-- The number of pixels of which the other camera sees a sample. -/
noncomputable def seenCount (cam other : Cam) (T : P4 → P4) (ds : List Int) (scale : ℝ) (w h : Nat) : Nat :=
  ((Finset.range w ×ˢ Finset.range h).filter fun q => Seen cam other T ds scale q.1 q.2).card

theorem set_buf (h : Heap) (b r c v b' r' c' : Nat) :
    (h.set b r c v).buf b' r' c' = if b' = b ∧ r' = r ∧ c' = c then v else h.buf b' r' c' := rfl

open scoped Classical in
theorem beam_spec (T : P4 → P4) (other : Cam) (b x y : Nat) (p : P4) : ∀ (ds : List Int) (s : Heap × ℝ), s.1.buf b y x = 0 →
    beam T other b x y p ds s = if ∃ d ∈ ds, other.sees (T (atDistance p d)) = true then (s.1.set b y x 255, s.2 + 1) else s := by
  intro ds
  induction ds with
  | nil => intro s _; simp [beam]
  | cons d ds ih =>
    intro s hs
    unfold beam
    rw [if_pos hs]
    by_cases hd : other.sees (T (atDistance p d)) = true
    · rw [if_pos hd, if_pos ⟨d, by simp, hd⟩]
      cases ds with
      | nil => rfl
      | cons e ds =>
        unfold beam
        rw [if_neg]
        rw [set_buf, if_pos ⟨rfl, rfl, rfl⟩]
        decide
    · rw [if_neg hd, ih s hs]
      by_cases he : ∃ d ∈ ds, other.sees (T (atDistance p d)) = true
      · rw [if_pos he, if_pos]
        obtain ⟨e, h1, h2⟩ := he
        exact ⟨e, by simp [h1], h2⟩
      · rw [if_neg he, if_neg]
        rintro ⟨e, h1, h2⟩
        rcases List.mem_cons.1 h1 with rfl | h1
        · exact hd h2
        · exact he ⟨e, h1, h2⟩

open scoped Classical in
/-- One pixel. -/
noncomputable def step (cam other : Cam) (T : P4 → P4) (ds : List Int) (scale : ℝ) (b : Nat) (s : Heap × ℝ) (q : Nat × Nat) : Heap × ℝ :=
  if Seen cam other T ds scale q.1 q.2 then (s.1.set b q.2 q.1 255, s.2 + 1) else s

open scoped Classical in
theorem step_spec (cam other : Cam) (T : P4 → P4) (ds : List Int) (scale : ℝ) (b : Nat) : ∀ (l : List (Nat × Nat)) (s : Heap × ℝ),
    (l.foldl (step cam other T ds scale b) s).1.next = s.1.next ∧
    (∀ b' r c, (l.foldl (step cam other T ds scale b) s).1.buf b' r c =
      if b' = b ∧ (c, r) ∈ l ∧ Seen cam other T ds scale c r then 255 else s.1.buf b' r c) ∧
    (l.foldl (step cam other T ds scale b) s).2 = s.2 + (l.filter fun q => Seen cam other T ds scale q.1 q.2).length := by
  intro l
  induction l using List.reverseRecOn with
  | nil => intro s; simp
  | append_singleton l q ih =>
    intro s
    obtain ⟨h0, h1, h2⟩ := ih s
    rw [List.foldl_append, List.foldl_cons, List.foldl_nil]
    obtain ⟨s', hs'⟩ : ∃ s', s' = l.foldl (step cam other T ds scale b) s := ⟨_, rfl⟩
    rw [← hs'] at h0 h1 h2 ⊢
    unfold step
    by_cases hq : Seen cam other T ds scale q.1 q.2
    · rw [if_pos hq]
      refine ⟨h0, fun b' r c => ?_, ?_⟩
      · show (s'.1.set b q.2 q.1 255).buf b' r c = _
        rw [set_buf, h1]
        by_cases hb : b' = b ∧ r = q.2 ∧ c = q.1
        · obtain ⟨rfl, rfl, rfl⟩ := hb
          rw [if_pos ⟨rfl, rfl, rfl⟩, if_pos ⟨rfl, by simp, hq⟩]
        · rw [if_neg hb]
          by_cases hc : b' = b ∧ (c, r) ∈ l ∧ Seen cam other T ds scale c r
          · rw [if_pos hc, if_pos ⟨hc.1, by simp [hc.2.1], hc.2.2⟩]
          · rw [if_neg hc, if_neg]
            rintro ⟨e1, e2, e3⟩
            rcases List.mem_append.1 e2 with e2 | e2
            · exact hc ⟨e1, e2, e3⟩
            · rw [List.mem_singleton] at e2
              exact hb ⟨e1, by rw [← e2], by rw [← e2]⟩
      · show s'.2 + 1 = _
        rw [h2, List.filter_append, List.length_append, List.filter_cons, if_pos (by simpa using hq)]
        push_cast
        simp
        ring
    · rw [if_neg hq]
      refine ⟨h0, fun b' r c => ?_, ?_⟩
      · rw [h1]
        by_cases hc : b' = b ∧ (c, r) ∈ l ∧ Seen cam other T ds scale c r
        · rw [if_pos hc, if_pos ⟨hc.1, by simp [hc.2.1], hc.2.2⟩]
        · rw [if_neg hc, if_neg]
          rintro ⟨e1, e2, e3⟩
          rcases List.mem_append.1 e2 with e2 | e2
          · exact hc ⟨e1, e2, e3⟩
          · rw [List.mem_singleton] at e2
            rw [← e2] at hq
            exact hq e3
      · rw [h2, List.filter_append, List.length_append, List.filter_cons, if_neg (by simpa using hq)]
        simp

/-- The pixels in the order of the loops. -/
def pixels (w h : Nat) : List (Nat × Nat) := (List.range w).flatMap fun x => (List.range h).map fun y => (x, y)

theorem mem_pixels {w h : Nat} {q : Nat × Nat} : q ∈ pixels w h ↔ q.1 < w ∧ q.2 < h := by
  obtain ⟨x, y⟩ := q
  simp only [pixels, List.mem_flatMap, List.mem_range, List.mem_map, Prod.mk.injEq]
  constructor
  · rintro ⟨a, ha, b, hb, rfl, rfl⟩; exact ⟨ha, hb⟩
  · rintro ⟨ha, hb⟩; exact ⟨x, ha, y, hb, rfl, rfl⟩

theorem nodup_pixels (w h : Nat) : (pixels w h).Nodup := by
  unfold pixels
  rw [List.nodup_flatMap]
  refine ⟨fun x _ => List.Nodup.map (fun a b hab => (Prod.ext_iff.1 hab).2) List.nodup_range, ?_⟩
  refine List.Nodup.pairwise_of_forall_ne List.nodup_range ?_
  intro a _ b _ hab
  simp only [Function.onFun, List.disjoint_left, List.mem_map, not_exists, not_and]
  rintro q ⟨c, _, rfl⟩ d _ hd
  exact hab (Prod.ext_iff.1 hd).1.symm

open scoped Classical in
theorem filter_pixels (cam other : Cam) (T : P4 → P4) (ds : List Int) (scale : ℝ) (w h : Nat) :
    ((pixels w h).filter fun q => Seen cam other T ds scale q.1 q.2).length = seenCount cam other T ds scale w h := by
  unfold seenCount
  rw [← List.toFinset_card_of_nodup ((nodup_pixels w h).filter _)]
  congr 1
  ext q
  simp [mem_pixels]

open scoped Classical in
theorem build_spec (cam other : Cam) (T : P4 → P4) (ds : List Int) (scale : ℝ) (w h b : Nat) (heap : Heap)
    (hz : ∀ x y, x < w → y < h → heap.buf b y x = 0) :
    (build cam other T ds scale w h b heap).1.next = heap.next ∧
    (∀ b' r c, (build cam other T ds scale w h b heap).1.buf b' r c =
      if b' = b ∧ (c < w ∧ r < h) ∧ Seen cam other T ds scale c r then 255 else heap.buf b' r c) ∧
    (build cam other T ds scale w h b heap).2 = seenCount cam other T ds scale w h / (w * h) := by
  have key : ∀ (l : List (Nat × Nat)) (s : Heap × ℝ), l.Nodup → (∀ q ∈ l, s.1.buf b q.2 q.1 = 0) →
      l.foldl (fun s q => match cam.ray ((q.1 : Nat) / scale) ((q.2 : Nat) / scale) with
        | some p => beam T other b q.1 q.2 p ds s
        | none => s) s = l.foldl (step cam other T ds scale b) s := by
    intro l
    induction l with
    | nil => intro s _ _; rfl
    | cons q l ih =>
      intro s hn hs
      rw [List.nodup_cons] at hn
      rw [List.foldl_cons, List.foldl_cons]
      have e : (match cam.ray ((q.1 : Nat) / scale) ((q.2 : Nat) / scale) with
        | some p => beam T other b q.1 q.2 p ds s
        | none => s) = step cam other T ds scale b s q := by
        unfold step Seen
        cases hr : cam.ray ((q.1 : Nat) / scale) ((q.2 : Nat) / scale) with
        | none => simp
        | some p =>
          simp only [Option.some.injEq, exists_eq_left']
          exact beam_spec T other b q.1 q.2 p ds s (hs q (by simp))
      rw [e]
      refine ih _ hn.2 fun r hr => ?_
      unfold step
      by_cases hq : Seen cam other T ds scale q.1 q.2
      · rw [if_pos hq]
        show (s.1.set b q.2 q.1 255).buf b r.2 r.1 = 0
        rw [set_buf, if_neg, hs r (by simp [hr])]
        rintro ⟨-, h1, h2⟩
        exact hn.1 (by rw [show q = r from Prod.ext h2.symm h1.symm]; exact hr)
      · rw [if_neg hq]
        exact hs r (by simp [hr])
  have e : (List.range w).foldl (fun s (x : Nat) => (List.range h).foldl (fun s (y : Nat) =>
      match cam.ray ((x : Nat) / scale) ((y : Nat) / scale) with
      | some p => beam T other b x y p ds s
      | none => s) s) (heap, (0 : ℝ)) = (pixels w h).foldl (step cam other T ds scale b) (heap, 0) := by
    rw [← key (pixels w h) (heap, 0) (nodup_pixels w h) (fun q hq => hz q.1 q.2 (mem_pixels.1 hq).1 (mem_pixels.1 hq).2)]
    unfold pixels
    rw [List.foldl_flatMap]
    congr 1
    funext s x
    rw [List.foldl_map]
  obtain ⟨h0, h1, h2⟩ := step_spec cam other T ds scale b (pixels w h) (heap, 0)
  rw [← e] at h0 h1 h2
  refine ⟨h0, fun b' r c => ?_, ?_⟩
  · refine (h1 b' r c).trans ?_
    simp only [mem_pixels]
  · refine (congrArg (fun t : ℝ => t / ((w : ℝ) * h)) h2).trans ?_
    simp only [filter_pixels, zero_add]

theorem assignZeros_same (h : Heap) (rows cols b : Nat) :
    assignZeros h ⟨rows, cols, some b⟩ rows cols =
      ({ h with buf := fun b' r c => if b' = b then 0 else h.buf b' r c }, ⟨rows, cols, some b⟩, b) := by
  simp [assignZeros, create]

/-- The size of the mask of a camera. -/
noncomputable def size (n : Nat) (scale : ℝ) : Nat := (trunc (n * scale)).toNat

/-- C155: if the two masks have the sizes of the scaled images and do not share pixels, a pixel of a mask is set afterwards exactly if
the other camera sees one of the samples on its ray, and is zero otherwise; the ratio is the share of such pixels, and the mask has
the scale.  Missing: masks of other sizes (`C155_mask_counterexample`). -/
theorem C155_overlap_partial (cam1 cam2 : Cam) (T Tinv : P4 → P4) (heap : Heap) (b1 b2 : Nat) (s1 s2 : ℝ) (ds : List Int) (scale : ℝ) (hb : b1 ≠ b2) :
    let m1 : ImageMask := ⟨⟨size cam1.height scale, size cam1.width scale, some b1⟩, s1⟩
    let m2 : ImageMask := ⟨⟨size cam2.height scale, size cam2.width scale, some b2⟩, s2⟩
    let R := overlap cam1 cam2 T Tinv heap m1 m2 ds scale
    (∀ r c, r < size cam1.height scale → c < size cam1.width scale →
      (Seen cam1 cam2 Tinv ds scale c r → (getMaskAsMatrix R.heap R.mask1).2.2 r c = 255) ∧
      (¬ Seen cam1 cam2 Tinv ds scale c r → (getMaskAsMatrix R.heap R.mask1).2.2 r c = 0)) ∧
    (∀ r c, r < size cam2.height scale → c < size cam2.width scale →
      (Seen cam2 cam1 T ds scale c r → (getMaskAsMatrix R.heap R.mask2).2.2 r c = 255) ∧
      (¬ Seen cam2 cam1 T ds scale c r → (getMaskAsMatrix R.heap R.mask2).2.2 r c = 0)) ∧
    R.mask1.mask = m1.mask ∧ R.mask2.mask = m2.mask ∧ R.mask1.scale = scale ∧ R.mask2.scale = scale := by
  classical
  intro m1 m2 R
  obtain ⟨a, ha⟩ : ∃ a, a = assignZeros heap m1.mask (size cam1.height scale) (size cam1.width scale) := ⟨_, rfl⟩
  obtain ⟨c, hc⟩ : ∃ c, c = assignZeros a.1 m2.mask (size cam2.height scale) (size cam2.width scale) := ⟨_, rfl⟩
  have ha' := ha
  rw [assignZeros_same] at ha'
  have hc' := hc
  rw [assignZeros_same] at hc'
  have hc1 : ∀ r x, c.1.buf b1 r x = 0 := by
    intro r x
    rw [hc', ha']
    simp [hb]
  have hc2 : ∀ r x, c.1.buf b2 r x = 0 := by
    intro r x
    rw [hc']
    simp
  obtain ⟨-, r1, -⟩ := build_spec cam1 cam2 Tinv ds scale (size cam1.width scale) (size cam1.height scale) a.2.2 c.1
    (by rw [ha']; exact fun x y _ _ => hc1 y x)
  obtain ⟨r, hr⟩ : ∃ r, r = build cam1 cam2 Tinv ds scale (size cam1.width scale) (size cam1.height scale) a.2.2 c.1 := ⟨_, rfl⟩
  rw [← hr] at r1
  have hr2 : ∀ y x, r.1.buf b2 y x = 0 := by
    intro y x
    rw [r1, if_neg, hc2]
    rw [ha']
    exact fun h => hb h.1.symm
  obtain ⟨-, q1, -⟩ := build_spec cam2 cam1 T ds scale (size cam2.width scale) (size cam2.height scale) c.2.2 r.1
    (by rw [hc']; exact fun x y _ _ => hr2 y x)
  have hR : R.heap = (build cam2 cam1 T ds scale (size cam2.width scale) (size cam2.height scale) c.2.2 r.1).1 := by
    rw [hr, hc, ha]
    rfl
  rw [← hR] at q1
  have g1 : ∀ y x, (getMaskAsMatrix R.heap R.mask1).2.2 y x = (R.heap.buf b1 y x : Int) := fun _ _ => rfl
  have g2 : ∀ y x, (getMaskAsMatrix R.heap R.mask2).2.2 y x = (R.heap.buf b2 y x : Int) := fun _ _ => rfl
  have ec : c.2.2 = b2 := by rw [hc']
  have ea : a.2.2 = b1 := by rw [ha']
  refine ⟨fun y x hy hx => ?_, fun y x hy hx => ?_, rfl, rfl, rfl, rfl⟩
  · rw [g1, q1, if_neg (by rw [ec]; exact fun h => hb h.1), r1]
    refine ⟨fun h => by rw [if_pos ⟨ea.symm, ⟨hx, hy⟩, h⟩]; rfl, fun h => ?_⟩
    rw [if_neg (fun h' => h h'.2.2), hc1]
    rfl
  · rw [g2, q1]
    refine ⟨fun h => by rw [if_pos ⟨ec.symm, ⟨hx, hy⟩, h⟩]; rfl, fun h => ?_⟩
    rw [if_neg (fun h' => h h'.2.2), hr2]
    rfl

/-- The buffers of an image are in use. -/
def Image.Ok (m : Image) (h : Heap) : Prop := ∀ b, m.data = some b → b < h.next

theorem assignZeros_spec (h : Heap) (m : Image) (rows cols : Nat) (hm : m.Ok h) :
    (∀ r c, (assignZeros h m rows cols).1.buf (assignZeros h m rows cols).2.2 r c = 0) ∧
    (∀ b r c, b ≠ (assignZeros h m rows cols).2.2 → (assignZeros h m rows cols).1.buf b r c = h.buf b r c) ∧
    h.next ≤ (assignZeros h m rows cols).1.next ∧ (assignZeros h m rows cols).2.2 < (assignZeros h m rows cols).1.next ∧
    ((m.rows = rows ∧ m.cols = cols ∧ m.data = some (assignZeros h m rows cols).2.2) ∨
      (¬ (m.data.isSome ∧ m.rows = rows ∧ m.cols = cols) ∧ (assignZeros h m rows cols).2.2 = h.next)) := by
  refine ⟨fun r c => ?_, fun b r c hb => ?_, ?_, ?_, ?_⟩
  · simp [assignZeros]
  · unfold assignZeros at hb ⊢
    simp only [if_neg hb]
    unfold create
    cases hd : m.data with
    | none => rfl
    | some b0 => by_cases hs : m.rows = rows ∧ m.cols = cols <;> simp [hs]
  · unfold assignZeros create
    cases hd : m.data with
    | none => simp
    | some b0 => by_cases hs : m.rows = rows ∧ m.cols = cols <;> simp [hs]
  · unfold assignZeros create
    cases hd : m.data with
    | none => simp
    | some b0 =>
      have := hm b0 hd
      by_cases hs : m.rows = rows ∧ m.cols = cols <;> simp [hs, this]
  · unfold assignZeros create
    cases hd : m.data with
    | none => right; simp
    | some b0 =>
      by_cases hs : m.rows = rows ∧ m.cols = cols
      · left; simp [hs]
      · right
        refine ⟨by simpa using hs, ?_⟩
        simp only [if_neg hs]

/-- C155: the two ratios are the shares of pixels of which the other camera sees a sample, whatever masks are passed, unless they share
their pixels. -/
theorem C155_ratios (cam1 cam2 : Cam) (T Tinv : P4 → P4) (heap : Heap) (m1 m2 : ImageMask) (ds : List Int) (scale : ℝ)
    (h1 : m1.mask.Ok heap) (h2 : m2.mask.Ok heap) (hb : ∀ b, m1.mask.data = some b → m2.mask.data ≠ some b) :
    let R := overlap cam1 cam2 T Tinv heap m1 m2 ds scale
    R.ratio1 = seenCount cam1 cam2 Tinv ds scale (size cam1.width scale) (size cam1.height scale) / (size cam1.width scale * size cam1.height scale) ∧
    R.ratio2 = seenCount cam2 cam1 T ds scale (size cam2.width scale) (size cam2.height scale) / (size cam2.width scale * size cam2.height scale) := by
  classical
  intro R
  obtain ⟨a1, a2, a3, a4, a5⟩ := assignZeros_spec heap m1.mask (size cam1.height scale) (size cam1.width scale) h1
  obtain ⟨a, ha⟩ : ∃ a, a = assignZeros heap m1.mask (size cam1.height scale) (size cam1.width scale) := ⟨_, rfl⟩
  rw [← ha] at a1 a2 a3 a4 a5
  obtain ⟨c1, c2, c3, c4, c5⟩ := assignZeros_spec a.1 m2.mask (size cam2.height scale) (size cam2.width scale)
    (fun b h => lt_of_lt_of_le (h2 b h) a3)
  obtain ⟨c, hc⟩ : ∃ c, c = assignZeros a.1 m2.mask (size cam2.height scale) (size cam2.width scale) := ⟨_, rfl⟩
  rw [← hc] at c1 c2 c3 c4 c5
  have hac : a.2.2 ≠ c.2.2 := by
    intro he
    rcases c5 with ⟨-, -, c5⟩ | ⟨-, c5⟩
    · rcases a5 with ⟨-, -, a5⟩ | ⟨-, a5⟩
      · exact hb _ a5 (by rw [he]; exact c5)
      · have := h2 _ c5
        omega
    · omega
  obtain ⟨-, r1, r2⟩ := build_spec cam1 cam2 Tinv ds scale (size cam1.width scale) (size cam1.height scale) a.2.2 c.1
    (fun x y _ _ => by rw [c2 _ _ _ hac, a1])
  obtain ⟨r, hr⟩ : ∃ r, r = build cam1 cam2 Tinv ds scale (size cam1.width scale) (size cam1.height scale) a.2.2 c.1 := ⟨_, rfl⟩
  rw [← hr] at r1 r2
  obtain ⟨-, -, q2⟩ := build_spec cam2 cam1 T ds scale (size cam2.width scale) (size cam2.height scale) c.2.2 r.1
    (fun x y _ _ => by rw [r1, if_neg (fun h => hac h.1.symm), c1])
  constructor
  · rw [← r2, hr, hc, ha]
    rfl
  · rw [← q2, hr, hc, ha]
    rfl

/-- C155 is false of masks that do not have the size of the scaled image already: nothing that is found out reaches the mask of the
caller.  A new mask, of size zero, stays empty, whatever the cameras see. -/
theorem C155_mask_counterexample (cam1 cam2 : Cam) (T Tinv : P4 → P4) (heap : Heap) (ds : List Int) (scale : ℝ) :
    (getMaskAsMatrix (overlap cam1 cam2 T Tinv heap new new ds scale).heap (overlap cam1 cam2 T Tinv heap new new ds scale).mask1).1 = 0 ∧
    ∀ u v, isValid (overlap cam1 cam2 T Tinv heap new new ds scale).heap (overlap cam1 cam2 T Tinv heap new new ds scale).mask1 u v = .ok true :=
  ⟨rfl, fun _ _ => rfl⟩

/-- The mask of the caller keeps the pixels it had, when its size is another one. -/
theorem C155_mask_unchanged (cam1 cam2 : Cam) (T Tinv : P4 → P4) (heap : Heap) (m1 m2 : ImageMask) (ds : List Int) (scale : ℝ)
    (h1 : m1.mask.Ok heap) (h2 : m2.mask.Ok heap) (hb : ∀ b, m1.mask.data = some b → m2.mask.data ≠ some b)
    (hs : ¬ (m1.mask.rows = size cam1.height scale ∧ m1.mask.cols = size cam1.width scale)) :
    let R := overlap cam1 cam2 T Tinv heap m1 m2 ds scale
    getMaskAsMatrix R.heap R.mask1 = getMaskAsMatrix heap m1 := by
  classical
  intro R
  obtain ⟨a1, a2, a3, a4, a5⟩ := assignZeros_spec heap m1.mask (size cam1.height scale) (size cam1.width scale) h1
  obtain ⟨a, ha⟩ : ∃ a, a = assignZeros heap m1.mask (size cam1.height scale) (size cam1.width scale) := ⟨_, rfl⟩
  rw [← ha] at a1 a2 a3 a4 a5
  obtain ⟨c1, c2, c3, c4, c5⟩ := assignZeros_spec a.1 m2.mask (size cam2.height scale) (size cam2.width scale)
    (fun b h => lt_of_lt_of_le (h2 b h) a3)
  obtain ⟨c, hc⟩ : ∃ c, c = assignZeros a.1 m2.mask (size cam2.height scale) (size cam2.width scale) := ⟨_, rfl⟩
  rw [← hc] at c1 c2 c3 c4 c5
  have ea : a.2.2 = heap.next := by
    rcases a5 with ⟨e1, e2, -⟩ | ⟨-, a5⟩
    · exact absurd ⟨e1, e2⟩ hs
    · exact a5
  have hac : a.2.2 ≠ c.2.2 := by
    intro he
    rcases c5 with ⟨-, -, c5⟩ | ⟨-, c5⟩
    · have := h2 _ c5
      omega
    · omega
  obtain ⟨-, r1, -⟩ := build_spec cam1 cam2 Tinv ds scale (size cam1.width scale) (size cam1.height scale) a.2.2 c.1
    (fun x y _ _ => by rw [c2 _ _ _ hac, a1])
  obtain ⟨r, hr⟩ : ∃ r, r = build cam1 cam2 Tinv ds scale (size cam1.width scale) (size cam1.height scale) a.2.2 c.1 := ⟨_, rfl⟩
  rw [← hr] at r1
  obtain ⟨-, q1, -⟩ := build_spec cam2 cam1 T ds scale (size cam2.width scale) (size cam2.height scale) c.2.2 r.1
    (fun x y _ _ => by rw [r1, if_neg (fun h => hac h.1.symm), c1])
  have hR : R.heap = (build cam2 cam1 T ds scale (size cam2.width scale) (size cam2.height scale) c.2.2 r.1).1 := by
    rw [hr, hc, ha]
    rfl
  rw [← hR] at q1
  unfold getMaskAsMatrix
  refine congrArg₂ Prod.mk rfl (congrArg₂ Prod.mk rfl ?_)
  funext y x
  show (match m1.mask.data with
    | some b => (R.heap.buf b y x : Int)
    | none => 0) = (match m1.mask.data with
    | some b => (heap.buf b y x : Int)
    | none => 0)
  cases hd : m1.mask.data with
  | none => rfl
  | some b =>
    have hlt := h1 b hd
    have hba : b ≠ a.2.2 := by omega
    have hbc : b ≠ c.2.2 := by
      rcases c5 with ⟨-, -, c5⟩ | ⟨-, c5⟩
      · exact fun he => hb b hd (by rw [he]; exact c5)
      · omega
    simp only [Nat.cast_inj]
    rw [q1, if_neg (fun h => hbc h.1), r1, if_neg (fun h => hba h.1), c2 _ _ _ hbc, a2 _ _ _ hba]

/-- C155: where the samples are: for a ray `p` (with last coordinate zero) and a distance `d`, the sample is at the length of `p` plus
`d` from the centre of the camera. -/
theorem C155_sample (p : P4) (hp : p.w = 0) (hn : p.norm ≠ 0) (d : Int) (hd : 0 < p.norm + d) : (atDistance p d).dist = p.norm + d := by
  have hn0 : 0 < p.norm := lt_of_le_of_ne (Real.sqrt_nonneg _) (Ne.symm hn)
  have hsq : p.norm ^ 2 = p.x ^ 2 + p.y ^ 2 + p.z ^ 2 := by
    unfold P4.norm
    rw [Real.sq_sqrt (by positivity), hp]
    ring
  have e : (p.x / (p.norm / (p.norm + d))) ^ 2 + (p.y / (p.norm / (p.norm + d))) ^ 2 + (p.z / (p.norm / (p.norm + d))) ^ 2 = (p.norm + d) ^ 2 := by
    have : (p.x / (p.norm / (p.norm + d))) ^ 2 + (p.y / (p.norm / (p.norm + d))) ^ 2 + (p.z / (p.norm / (p.norm + d))) ^ 2 =
        (p.x ^ 2 + p.y ^ 2 + p.z ^ 2) * (p.norm + d) ^ 2 / p.norm ^ 2 := by
      field_simp
    rw [this, ← hsq]
    field_simp
  unfold atDistance P4.dist
  simp only
  rw [e, Real.sqrt_sq hd.le]

/-- C155 is false of the distances: the sample for distance one on the ray `(0, 0, 1)` is at distance two. -/
theorem C155_distance_counterexample : (atDistance ⟨0, 0, 1, 0⟩ 1).dist = 2 := by
  have h1 : (⟨0, 0, 1, 0⟩ : P4).norm = 1 := by simp [P4.norm]
  rw [C155_sample _ rfl (by rw [h1]; norm_num) 1 (by rw [h1]; norm_num), h1]
  norm_num

theorem foldl_set (b : Nat) (v : Nat → Nat → Nat) : ∀ (l : List (Nat × Nat)) (h : Heap),
    (l.foldl (fun h q => h.set b q.1 q.2 (v q.1 q.2)) h).next = h.next ∧
    ∀ b' r c, (l.foldl (fun h q => h.set b q.1 q.2 (v q.1 q.2)) h).buf b' r c = if b' = b ∧ (r, c) ∈ l then v r c else h.buf b' r c := by
  intro l
  induction l using List.reverseRecOn with
  | nil => intro h; simp
  | append_singleton l q ih =>
    intro h
    obtain ⟨h0, h1⟩ := ih h
    rw [List.foldl_append, List.foldl_cons, List.foldl_nil]
    refine ⟨h0, fun b' r c => ?_⟩
    rw [set_buf, h1]
    by_cases hq : b' = b ∧ r = q.1 ∧ c = q.2
    · obtain ⟨rfl, rfl, rfl⟩ := hq
      rw [if_pos ⟨rfl, rfl, rfl⟩, if_pos ⟨rfl, by simp⟩]
    · rw [if_neg hq]
      by_cases hl : b' = b ∧ (r, c) ∈ l
      · rw [if_pos hl, if_pos ⟨hl.1, by simp [hl.2]⟩]
      · rw [if_neg hl, if_neg]
        rintro ⟨e1, e2⟩
        rcases List.mem_append.1 e2 with e2 | e2
        · exact hl ⟨e1, e2⟩
        · rw [List.mem_singleton] at e2
          exact hq ⟨e1, by rw [← e2], by rw [← e2]⟩

/-- C155: a mask set from a matrix of numbers from 0 to 255 reads back as the same matrix, has its size, and is valid at a keypoint exactly
if the element there, after scaling, is not zero. -/
theorem C155_matrix (h : Heap) (k : ImageMask) (rows cols : Nat) (m : Nat → Nat → Int) (hm : ∀ r c, r < rows → c < cols → 0 ≤ m r c ∧ m r c < 256) :
    let s := setMaskFromMatrix h k rows cols m
    (getMaskAsMatrix s.1 s.2).1 = rows ∧ (getMaskAsMatrix s.1 s.2).2.1 = cols ∧
    (∀ r c, r < rows → c < cols → (getMaskAsMatrix s.1 s.2).2.2 r c = m r c) ∧ s.2.scale = k.scale ∧
    (∀ (u v : ℝ) (r c : Nat), r < rows → c < cols → trunc (v * k.scale) = r → trunc (u * k.scale) = c →
      (isValid s.1 s.2 u v = .ok true ↔ m r c ≠ 0) ∧ (isValid s.1 s.2 u v = .ok false ↔ m r c = 0)) := by
  intro s
  obtain ⟨h', i, b, hc⟩ : ∃ h' i b, create h k.mask rows cols = (h', i, b) := ⟨_, _, _, rfl⟩
  have hi : i = ⟨rows, cols, some b⟩ := by
    unfold create at hc
    cases hd : k.mask.data with
    | none =>
      rw [hd] at hc
      simp only [Prod.mk.injEq] at hc
      rw [← hc.2.1, ← hc.2.2]
    | some b0 =>
      rw [hd] at hc
      by_cases hs : k.mask.rows = rows ∧ k.mask.cols = cols
      · simp only [if_pos hs, Prod.mk.injEq] at hc
        rw [← hc.2.1, ← hc.2.2, ← hs.1, ← hs.2, ← hd]
      · simp only [if_neg hs, Prod.mk.injEq] at hc
        rw [← hc.2.1, ← hc.2.2]
  have hs : s = ((pixels rows cols).foldl (fun h q => h.set b q.1 q.2 (m q.1 q.2 % 256).toNat) h', { k with mask := i }) := by
    show setMaskFromMatrix h k rows cols m = _
    unfold setMaskFromMatrix
    rw [hc]
    simp only [Prod.mk.injEq, and_true]
    unfold pixels
    rw [List.foldl_flatMap]
    congr 1
    funext s x
    rw [List.foldl_map]
  obtain ⟨-, hb⟩ := foldl_set b (fun r c => (m r c % 256).toNat) (pixels rows cols) h'
  have hcell : ∀ r c, r < rows → c < cols → (s.1.buf b r c : Int) = m r c := by
    intro r c hr hcc
    rw [hs]
    show ((List.foldl (fun (h : Heap) (q : Nat × Nat) => h.set b q.1 q.2 (m q.1 q.2 % 256).toNat) h' (pixels rows cols)).buf b r c : Int) = _
    rw [hb, if_pos ⟨rfl, mem_pixels.2 ⟨hr, hcc⟩⟩]
    have := hm r c hr hcc
    rw [Int.emod_eq_of_lt this.1 this.2]
    omega
  have hs2 : s.2 = ⟨⟨rows, cols, some b⟩, k.scale⟩ := by rw [hs, hi]
  refine ⟨by rw [hs2]; rfl, by rw [hs2]; rfl, fun r c hr hcc => ?_, by rw [hs2], fun u v r c hr hcc hv hu => ?_⟩
  · rw [hs2]
    exact hcell r c hr hcc
  · have e : isValid s.1 s.2 u v = .ok (decide (0 < s.1.buf b r c)) := by
      rw [hs2]
      unfold isValid
      simp only [hv, hu]
      rw [if_pos ⟨by omega, by omega, by omega, by omega⟩]
      simp
    have := hcell r c hr hcc
    have h0 := (hm r c hr hcc).1
    rw [e]
    constructor
    · simp only [Out.ok.injEq, decide_eq_true_eq]
      omega
    · simp only [Out.ok.injEq, decide_eq_false_iff_not]
      omega

/-- A keypoint outside the image is read outside the mask. -/
theorem C155_outside_counterexample (h : Heap) : isValid h ⟨⟨480, 640, some 0⟩, 1⟩ 640 0 = .ub := by
  unfold isValid trunc
  norm_num

/-- A copy of a mask shares its pixels: setting the copy from a matrix of the same size changes the original. -/
theorem C155_copy_counterexample : ∃ (h : Heap) (k : ImageMask),
    (getMaskAsMatrix h k).2.2 0 0 = 0 ∧ (getMaskAsMatrix (setMaskFromMatrix h k 1 1 fun _ _ => 255).1 k).2.2 0 0 = 255 :=
  ⟨⟨fun _ _ _ => 0, 1⟩, ⟨⟨1, 1, some 0⟩, 1⟩, rfl, rfl⟩

/-! ## The hypotheses can be met -/

/-- A camera with two pixels. -/
noncomputable def cam : Cam := ⟨2, 1, fun x y => if x = 0 ∧ y = 0 then some ⟨0, 0, 1, 0⟩ else none, fun p => decide (0 < p.z)⟩

/-- The camera sees itself with the one pixel that has a ray. -/
example : ∃ R : Result, R = overlap cam cam id id ⟨fun _ _ _ => 7, 2⟩ ⟨⟨1, 2, some 0⟩, 1⟩ ⟨⟨1, 2, some 1⟩, 1⟩ [1, 10] 1 ∧
    (getMaskAsMatrix R.heap R.mask1).2.2 0 0 = 255 ∧ (getMaskAsMatrix R.heap R.mask1).2.2 0 1 = 0 := by
  have hw : size cam.width 1 = 2 := by simp [size, trunc, cam]
  have hh : size cam.height 1 = 1 := by simp [size, trunc, cam]
  have := (C155_overlap_partial cam cam id id ⟨fun _ _ _ => 7, 2⟩ 0 1 1 1 [1, 10] 1 (by decide)).1
  rw [hw, hh] at this
  refine ⟨_, rfl, (this 0 0 (by norm_num) (by norm_num)).1 ⟨⟨0, 0, 1, 0⟩, by simp [cam], 1, by simp, by simp [cam, atDistance]⟩,
    (this 0 1 (by norm_num) (by norm_num)).2 ?_⟩
  rintro ⟨p, hp, -⟩
  simp [cam] at hp

end Kalibr.Mask
