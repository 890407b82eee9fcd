import Verif.Fov.Model
import Verif.Tactics
import Mathlib.Data.Finset.Prod
import Mathlib.Data.Finset.Card

/-!
# Overlapping fields of view are counted rightly (C174)
-/

namespace Kalibr.Fov

open Matrix

theorem beam_eq (test : ℤ → Bool) (ds : List ℤ) (n : ℕ) :
    beam test ds (0, n) = if ∃ d ∈ ds, test d = true then (255, n + 1) else (0, n) := by
  induction ds with
  | nil => simp [beam]
  | cons d ds ih =>
    simp only [beam, if_true]
    by_cases h : test d = true
    · simp only [h, if_true]
      rw [if_pos ⟨d, by simp, h⟩]
      cases ds <;> simp [beam]
    · simp only [h, Bool.false_eq_true, if_false, ih]
      congr 1
      simp [h]

/-- The pixel shows a point the other camera sees, `T` being what is applied to the point. -/
def Hit (me other : Cam) (T : Matrix (Fin 4) (Fin 4) ℝ) (ds : List ℤ) (scale : ℝ) (x y : ℕ) : Prop :=
  ∃ p, me.back ((x : ℝ) / scale, (y : ℝ) / scale) = some p ∧ ∃ d ∈ ds, other.sees (T.mulVec (sendTo p d)) = true

noncomputable instance (me other : Cam) (T : Matrix (Fin 4) (Fin 4) ℝ) (ds : List ℤ) (scale : ℝ) (x y : ℕ) :
    Decidable (Hit me other T ds scale x y) := Classical.dec _

noncomputable instance (me other : Cam) (T : Matrix (Fin 4) (Fin 4) ℝ) (ds : List ℤ) (scale : ℝ) (x y : ℕ) :
    Decidable (Shared me other T ds scale x y) := Classical.dec _

theorem pixel_eq (me other : Cam) (T : Matrix (Fin 4) (Fin 4) ℝ) (ds : List ℤ) (scale : ℝ) (x y : ℕ)
    (s : (ℕ → ℕ → ℕ) × ℕ) (h0 : s.1 y x = 0) :
    pixel me other T ds scale x y s =
      if Hit me other T ds scale x y then (fun y' x' => if y' = y ∧ x' = x then 255 else s.1 y' x', s.2 + 1) else s := by
  unfold pixel
  cases hb : me.back ((x : ℝ) / scale, (y : ℝ) / scale) with
  | none => rw [if_neg]; rintro ⟨p, hp, -⟩; rw [hb] at hp; simp at hp
  | some p =>
    have iff : Hit me other T ds scale x y ↔ ∃ d ∈ ds, other.sees (T.mulVec (sendTo p d)) = true := by
      unfold Hit
      rw [hb]
      simp only [Option.some.injEq, exists_eq_left']
    simp only [h0, beam_eq]
    by_cases h : ∃ d ∈ ds, other.sees (T.mulVec (sendTo p d)) = true
    · rw [if_pos h, if_pos (iff.mpr h)]
    · rw [if_neg h, if_neg (iff.not.mpr h)]
      obtain ⟨a, b⟩ := s
      simp only [Prod.mk.injEq, and_true]
      funext y' x'
      split
      · rename_i e; rw [e.1, e.2]; exact h0.symm
      · rfl

/-- What holds after the pixels of a set. -/
structure Done (me other : Cam) (T : Matrix (Fin 4) (Fin 4) ℝ) (ds : List ℤ) (scale : ℝ) (S : Finset (ℕ × ℕ))
    (s : (ℕ → ℕ → ℕ) × ℕ) : Prop where
  data : ∀ x y, s.1 y x = if (x, y) ∈ S ∧ Hit me other T ds scale x y then 255 else 0
  count : s.2 = (S.filter fun q => Hit me other T ds scale q.1 q.2).card

theorem Done.pixel {me other : Cam} {T : Matrix (Fin 4) (Fin 4) ℝ} {ds : List ℤ} {scale : ℝ} {S : Finset (ℕ × ℕ)}
    {s : (ℕ → ℕ → ℕ) × ℕ} (h : Done me other T ds scale S s) {x y : ℕ} (hn : (x, y) ∉ S) :
    Done me other T ds scale (insert (x, y) S) (pixel me other T ds scale x y s) := by
  rw [pixel_eq _ _ _ _ _ _ _ _ (by rw [h.data, if_neg (by simp [hn])])]
  by_cases hh : Hit me other T ds scale x y
  · rw [if_pos hh]
    refine ⟨fun x' y' => ?_, ?_⟩
    · simp only [Finset.mem_insert, Prod.mk.injEq]
      by_cases e : y' = y ∧ x' = x
      · rw [if_pos e, if_pos ⟨Or.inl ⟨e.2, e.1⟩, by rw [e.1, e.2]; exact hh⟩]
      · rw [if_neg e, h.data]
        congr 1
        simp only [eq_iff_iff]
        constructor
        · rintro ⟨a, b⟩; exact ⟨Or.inr a, b⟩
        · rintro ⟨a | a, b⟩
          · exact absurd ⟨a.2, a.1⟩ e
          · exact ⟨a, b⟩
    · rw [Finset.filter_insert, if_pos hh, Finset.card_insert_of_notMem (by simp [hn]), h.count]
  · rw [if_neg hh]
    refine ⟨fun x' y' => ?_, ?_⟩
    · rw [h.data]
      congr 1
      simp only [Finset.mem_insert, Prod.mk.injEq, eq_iff_iff]
      constructor
      · rintro ⟨a, b⟩; exact ⟨Or.inr a, b⟩
      · rintro ⟨a | a, b⟩
        · rw [a.1, a.2] at b; exact absurd b hh
        · exact ⟨a, b⟩
    · rw [Finset.filter_insert, if_neg hh, h.count]

theorem scan_done (me other : Cam) (T : Matrix (Fin 4) (Fin 4) ℝ) (ds : List ℤ) (scale : ℝ) (w h : ℕ) :
    Done me other T ds scale (Finset.range w ×ˢ Finset.range h) (scan me other T ds scale w h) := by
  unfold scan
  induction w with
  | zero => exact ⟨by simp, by simp⟩
  | succ w ih =>
    rw [List.range_succ, List.foldl_append]
    generalize (List.range w).foldl _ _ = s at ih
    simp only [List.foldl_cons, List.foldl_nil]
    have go : ∀ k, k ≤ h → Done me other T ds scale
        (Finset.range w ×ˢ Finset.range h ∪ {w} ×ˢ Finset.range k)
        ((List.range k).foldl (fun s y => Fov.pixel me other T ds scale w y s) s) := by
      intro k
      induction k with
      | zero => intro _; simpa using ih
      | succ k ihk =>
        intro hk
        rw [List.range_succ, List.foldl_append, List.foldl_cons, List.foldl_nil]
        have := (ihk (by omega)).pixel (x := w) (y := k) (by simp)
        convert this using 1
        ext ⟨a, b⟩
        simp only [Finset.mem_union, Finset.mem_product, Finset.mem_range, Finset.mem_singleton, Finset.mem_insert,
          Prod.mk.injEq]
        constructor
        · rintro (h1 | ⟨h1, h2⟩)
          · exact Or.inr (Or.inl h1)
          · by_cases e : b = k
            · exact Or.inl ⟨h1, e⟩
            · exact Or.inr (Or.inr ⟨h1, by omega⟩)
        · rintro (⟨h1, h2⟩ | h1 | ⟨h1, h2⟩)
          · exact Or.inr ⟨h1, by omega⟩
          · exact Or.inl h1
          · exact Or.inr ⟨h1, by omega⟩
    convert go h le_rfl using 1
    ext ⟨a, b⟩
    simp only [Finset.mem_union, Finset.mem_product, Finset.mem_range, Finset.mem_singleton]
    constructor
    · rintro ⟨h1, h2⟩
      by_cases e : a = w
      · exact Or.inr ⟨e, h2⟩
      · exact Or.inl ⟨by omega, h2⟩
    · rintro (⟨h1, h2⟩ | ⟨h1, h2⟩)
      · exact ⟨by omega, h2⟩
      · exact ⟨by omega, h2⟩

theorem hit_iff {T : Matrix (Fin 4) (Fin 4) ℝ} (hT : IsUnit T.det) (me other : Cam) (ds : List ℤ) (scale : ℝ) (x y : ℕ) :
    Hit me other T⁻¹ ds scale x y ↔ Shared me other T ds scale x y := by
  unfold Hit Shared
  constructor
  · rintro ⟨p, hp, d, hd, h⟩
    exact ⟨p, hp, d, hd, _, by rw [Matrix.mulVec_mulVec, Matrix.mul_nonsing_inv _ hT, Matrix.one_mulVec], h⟩
  · rintro ⟨p, hp, d, hd, q, hq, h⟩
    refine ⟨p, hp, d, hd, ?_⟩
    rw [← hq, Matrix.mulVec_mulVec, Matrix.nonsing_inv_mul _ hT, Matrix.one_mulVec]
    exact h

theorem hit_iff' {T : Matrix (Fin 4) (Fin 4) ℝ} (hT : IsUnit T.det) (me other : Cam) (ds : List ℤ) (scale : ℝ) (x y : ℕ) :
    Hit me other T ds scale x y ↔ Shared me other T⁻¹ ds scale x y := by
  have := hit_iff (T := T⁻¹) (by rw [Matrix.det_nonsing_inv]; exact hT.ringInverse) me other ds scale x y
  rwa [Matrix.nonsing_inv_nonsing_inv _ hT] at this

/-- The ratios are the shares of the pixels of a camera that show, at one of the distances, a point the other camera
sees.  They are between zero and one. -/
theorem C174_ratio (c1 c2 : Cam) (T12 : Matrix (Fin 4) (Fin 4) ℝ) (hT : IsUnit T12.det) (m1 m2 : Mask) (ds : List ℤ)
    (scale : ℝ) :
    (overlap c1 c2 T12 m1 m2 ds scale).1.2 =
      (((Finset.range (size c1.w scale) ×ˢ Finset.range (size c1.h scale)).filter
        fun q => Shared c1 c2 T12 ds scale q.1 q.2).card : ℝ) / ((size c1.w scale : ℝ) * size c1.h scale) ∧
    (overlap c1 c2 T12 m1 m2 ds scale).2.2 =
      (((Finset.range (size c2.w scale) ×ˢ Finset.range (size c2.h scale)).filter
        fun q => Shared c2 c1 T12⁻¹ ds scale q.1 q.2).card : ℝ) / ((size c2.w scale : ℝ) * size c2.h scale) ∧
    0 ≤ (overlap c1 c2 T12 m1 m2 ds scale).1.2 ∧ (overlap c1 c2 T12 m1 m2 ds scale).1.2 ≤ 1 ∧
    0 ≤ (overlap c1 c2 T12 m1 m2 ds scale).2.2 ∧ (overlap c1 c2 T12 m1 m2 ds scale).2.2 ≤ 1 := by
  have e1 := (scan_done c1 c2 T12⁻¹ ds scale (size c1.w scale) (size c1.h scale)).count
  have e2 := (scan_done c2 c1 T12 ds scale (size c2.w scale) (size c2.h scale)).count
  have le (w h : ℕ) (P : ℕ × ℕ → Prop) [DecidablePred P] :
      (((Finset.range w ×ˢ Finset.range h).filter P).card : ℝ) / ((w : ℝ) * h) ≤ 1 := by
    refine div_le_one_of_le₀ ?_ (by positivity)
    have := Finset.card_filter_le (Finset.range w ×ˢ Finset.range h) P
    rw [Finset.card_product, Finset.card_range, Finset.card_range] at this
    exact_mod_cast this
  simp only [hit_iff hT] at e1
  simp only [hit_iff' hT] at e2
  have r1 : (overlap c1 c2 T12 m1 m2 ds scale).1.2 = _ := congrArg (fun n : ℕ => (n : ℝ) / ((size c1.w scale : ℝ) * size c1.h scale)) e1
  have r2 : (overlap c1 c2 T12 m1 m2 ds scale).2.2 = _ := congrArg (fun n : ℕ => (n : ℝ) / ((size c2.w scale : ℝ) * size c2.h scale)) e2
  rw [r1, r2]
  exact ⟨rfl, rfl, by positivity, le _ _ _, by positivity, le _ _ _⟩

/-- A mask that already has the size of the camera is set to 255 at exactly the pixels that are counted and to zero at all
others, and gets the scale.  Missing for the full property: masks of any other size. -/
theorem C174_mask_partial (c1 c2 : Cam) (T12 : Matrix (Fin 4) (Fin 4) ℝ) (hT : IsUnit T12.det) (m1 m2 : Mask) (ds : List ℤ)
    (scale : ℝ) :
    (m1.rows = size c1.h scale → m1.cols = size c1.w scale → ∀ x < size c1.w scale, ∀ y < size c1.h scale,
      (overlap c1 c2 T12 m1 m2 ds scale).1.1.data y x = if Shared c1 c2 T12 ds scale x y then 255 else 0) ∧
    (m2.rows = size c2.h scale → m2.cols = size c2.w scale → ∀ x < size c2.w scale, ∀ y < size c2.h scale,
      (overlap c1 c2 T12 m1 m2 ds scale).2.1.data y x = if Shared c2 c1 T12⁻¹ ds scale x y then 255 else 0) ∧
    (overlap c1 c2 T12 m1 m2 ds scale).1.1.scale = scale ∧ (overlap c1 c2 T12 m1 m2 ds scale).2.1.scale = scale := by
  have e1 := (scan_done c1 c2 T12⁻¹ ds scale (size c1.w scale) (size c1.h scale)).data
  have e2 := (scan_done c2 c1 T12 ds scale (size c2.w scale) (size c2.h scale)).data
  simp only [hit_iff hT] at e1
  simp only [hit_iff' hT] at e2
  simp only [overlap, half]
  refine ⟨fun a b x hx y hy => ?_, fun a b x hx y hy => ?_, ?_, ?_⟩
  · rw [if_pos ⟨a, b⟩]
    simp only [e1, Finset.mem_product, Finset.mem_range, hx, hy, and_self, true_and]
  · rw [if_pos ⟨a, b⟩]
    simp only [e2, Finset.mem_product, Finset.mem_range, hx, hy, and_self, true_and]
  · split <;> rfl
  · split <;> rfl

/-- A mask of another size, as a new one is, keeps its size and its entries whatever the cameras see. -/
theorem C174_mask_counterexample (c1 c2 : Cam) (T12 : Matrix (Fin 4) (Fin 4) ℝ) (m2 : Mask) (ds : List ℤ) (scale : ℝ)
    (hw : 1 ≤ (c1.w : ℝ) * scale) :
    (overlap c1 c2 T12 Mask.empty m2 ds scale).1.1 = { Mask.empty with scale := scale } := by
  have : 1 ≤ size c1.w scale := by
    unfold size
    have : 1 ≤ ⌊(c1.w : ℝ) * scale⌋ := Int.le_floor.mpr (by simpa using hw)
    omega
  refine if_neg ?_
  rintro ⟨-, h⟩
  change 0 = size c1.w scale at h
  omega

/-- The point that is looked for at a distance `d` is on the ray of the pixel, at the distance `d` behind the point the
back projection gives. -/
theorem C174_point (p : V4) (h3 : p 3 = 0) (hp : 0 < norm p) (d : ℤ) (hd : 0 < norm p + d) :
    place (sendTo p d) = ((norm p + d) / norm p) • ![p 0, p 1, p 2] ∧ distance (place (sendTo p d)) = norm p + d := by
  have e : place (sendTo p d) = ((norm p + d) / norm p) • ![p 0, p 1, p 2] := by
    ext i
    fin_cases i <;> simp [place, sendTo] <;> field_simp
  refine ⟨e, ?_⟩
  rw [e]
  have hn : norm p ^ 2 = p 0 ^ 2 + p 1 ^ 2 + p 2 ^ 2 := by
    unfold norm
    rw [Real.sq_sqrt (by positivity), h3]; ring
  unfold distance
  have : ((((norm p + d) / norm p) • ![p 0, p 1, p 2]) 0) ^ 2 + ((((norm p + d) / norm p) • ![p 0, p 1, p 2]) 1) ^ 2 +
      ((((norm p + d) / norm p) • ![p 0, p 1, p 2]) 2) ^ 2 = (norm p + d) ^ 2 := by
    simp only [Pi.smul_apply, smul_eq_mul]
    have : (((norm p + d) / norm p) * p 0) ^ 2 + (((norm p + d) / norm p) * p 1) ^ 2 + (((norm p + d) / norm p) * p 2) ^ 2 =
        ((norm p + d) / norm p) ^ 2 * (p 0 ^ 2 + p 1 ^ 2 + p 2 ^ 2) := by ring
    simp only [Matrix.cons_val_zero, Matrix.cons_val_one, Matrix.cons_val]
    rw [this, ← hn]
    field_simp
  rw [this, Real.sqrt_sq hd.le]

/-- The place of a point, for a ray of a pixel. -/
example : norm ![0, 0, 1, 0] = 1 ∧ place (sendTo ![0, 0, 1, 0] 4) = ![0, 0, 5] := by
  have : norm ![0, 0, 1, 0] = 1 := by simp [norm]
  refine ⟨this, ?_⟩
  ext i
  fin_cases i <;> simp [place, sendTo, this]; norm_num

/-- Two cameras at the same place that see everything share all pixels. -/
example : (overlap ⟨2, 2, fun _ => some ![0, 0, 1, 0], fun _ => true⟩ ⟨2, 2, fun _ => none, fun _ => true⟩ 1 Mask.empty
    Mask.empty [4] 1).1.2 = 1 ∧
    (overlap ⟨2, 2, fun _ => some ![0, 0, 1, 0], fun _ => true⟩ ⟨2, 2, fun _ => none, fun _ => true⟩ 1 Mask.empty
    Mask.empty [4] 1).2.2 = 0 := by
  have s : size 2 1 = 2 := by simp [size]
  obtain ⟨h1, h2, -⟩ := C174_ratio ⟨2, 2, fun _ => some ![0, 0, 1, 0], fun _ => true⟩ ⟨2, 2, fun _ => none, fun _ => true⟩ 1
    (by simp) Mask.empty Mask.empty [4] 1
  rw [h1, h2]
  simp only [s]
  constructor
  · rw [Finset.filter_true_of_mem]
    · simp; norm_num
    · intro q _
      exact ⟨_, rfl, 4, by simp, _, Matrix.one_mulVec _, rfl⟩
  · rw [Finset.filter_false_of_mem]
    · simp
    · rintro q _ ⟨p, hp, -⟩
      simp at hp

end Kalibr.Fov
