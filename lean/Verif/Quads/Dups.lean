import Verif.Quads.Model

/-!
# C138: a tag that is found several times
-/

namespace Kalibr.Quads

open Kalibr.Target (P2)

/-- Two detections of the same tag at the same place: same id, and the distance of the centres is
below the mean of their edges over two. -/
def Same (a b : Found) : Prop := a.id = b.id ∧ overlapsTooMuch a b

/-- `a` is at least as good as `b`: fewer wrong bits, or as many and no smaller perimeter. -/
def AsGood (a b : Found) : Prop :=
  a.hamming < b.hamming ∨ a.hamming = b.hamming ∧ b.perimeter ≤ a.perimeter

theorem AsGood.refl (a : Found) : AsGood a a := Or.inr ⟨rfl, le_refl _⟩

theorem AsGood.trans {a b c : Found} (h : AsGood a b) (k : AsGood b c) : AsGood a c := by
  rcases h with h | ⟨h, h'⟩ <;> rcases k with k | ⟨k, k'⟩
  · exact Or.inl (by omega)
  · exact Or.inl (by omega)
  · exact Or.inl (by omega)
  · exact Or.inr ⟨by omega, le_trans k' h'⟩

theorem AsGood.total (a b : Found) : AsGood a b ∨ AsGood b a := by
  rcases lt_trichotomy a.hamming b.hamming with h | h | h
  · exact Or.inl (Or.inl h)
  · rcases le_total a.perimeter b.perimeter with k | k
    · exact Or.inr (Or.inr ⟨h.symm, k⟩)
    · exact Or.inl (Or.inr ⟨h, k⟩)
  · exact Or.inr (Or.inl h)

theorem not_same {t o : Found} : (t.id ≠ o.id ∨ ¬ overlapsTooMuch t o) ↔ ¬ Same t o := by
  unfold Same
  by_cases h1 : t.id = o.id <;> by_cases h2 : overlapsTooMuch t o <;> simp [h1, h2]

open Classical in
/-- What becomes of one kept detection. -/
noncomputable def against (t o : Found) : Found := if Same t o ∧ ¬ AsGood o t then t else o

open Classical in
theorem absorb_eq (good : List Found) (t : Found) :
    absorb good t = if ∃ o ∈ good, Same t o then good.map (against t) else good ++ [t] := by
  have hm : good.map (fun o => if t.id ≠ o.id ∨ ¬ overlapsTooMuch t o then o
      else if t.hamming > o.hamming then o
      else if t.hamming < o.hamming ∨ t.perimeter > o.perimeter then t else o) = good.map (against t) := by
    apply List.map_congr_left
    intro o _
    unfold against
    by_cases hs : Same t o
    · rw [if_neg (by rw [not_same]; exact not_not.2 hs)]
      by_cases h1 : t.hamming > o.hamming
      · rw [if_pos h1, if_neg (fun h => h.2 (Or.inl h1))]
      · rw [if_neg h1]
        by_cases h2 : t.hamming < o.hamming ∨ t.perimeter > o.perimeter
        · have hn : ¬ AsGood o t := by
            rintro (h | ⟨h, h'⟩)
            · exact h1 h
            · rcases h2 with h2 | h2
              · omega
              · exact absurd h' (not_le.2 h2)
          rw [if_pos h2, if_pos ⟨hs, hn⟩]
        · rw [if_neg h2, if_neg]
          rintro ⟨_, hn⟩
          push Not at h2 h1
          exact hn (Or.inr ⟨le_antisymm h2.1 h1, h2.2⟩)
    · rw [if_pos (not_same.2 hs), if_neg (fun h => hs h.1)]
  have he : (∃ o ∈ good, ¬ (t.id ≠ o.id ∨ ¬ overlapsTooMuch t o)) ↔ ∃ o ∈ good, Same t o := by
    simp only [not_same, not_not]
  have : absorb good t = if ∃ o ∈ good, ¬ (t.id ≠ o.id ∨ ¬ overlapsTooMuch t o)
      then good.map (against t) else good.map (against t) ++ [t] := by
    unfold absorb
    rw [hm]
  rw [this]
  by_cases h : ∃ o ∈ good, Same t o
  · rw [if_pos (he.2 h), if_pos h]
  · rw [if_neg (fun k => h (he.1 k)), if_neg h]
    congr 1
    conv_rhs => rw [← List.map_id' good]
    apply List.map_congr_left
    intro o ho
    unfold against
    rw [if_neg]
    exact fun k => h ⟨o, ho, k.1⟩

/-- The running of step nine, with an invariant over the detections handled so far. -/
theorem resolve_inv (P : List Found → List Found → Prop) (h0 : P [] [])
    (hs : ∀ seen good t, P seen good → P (seen ++ [t]) (absorb good t)) (ds : List Found) :
    P ds (resolve ds) := by
  have : ∀ rest seen good, P seen good → P (seen ++ rest) (rest.foldl absorb good) := by
    intro rest
    induction rest with
    | nil => intro seen good h; simpa using h
    | cons t rest ih =>
      intro seen good h
      have := ih (seen ++ [t]) (absorb good t) (hs seen good t h)
      simpa using this
  simpa [resolve] using this ds [] [] h0

/-- **C138.** What is reported was detected, and for every detection one that is at least as good, of
the same tag, is reported: the best detection of a tag is never lost. -/
theorem C138_reported (ds : List Found) :
    (∀ o ∈ resolve ds, o ∈ ds) ∧
    ∀ d ∈ ds, ∃ o ∈ resolve ds, o.id = d.id ∧ AsGood o d := by
  refine resolve_inv (fun seen good => (∀ o ∈ good, o ∈ seen) ∧
    ∀ d ∈ seen, ∃ o ∈ good, o.id = d.id ∧ AsGood o d) ?_ ?_ ds
  · simp
  · intro seen good t ⟨h1, h2⟩
    rw [absorb_eq]
    by_cases h : ∃ o ∈ good, Same t o
    · rw [if_pos h]
      have hag : ∀ o, (against t o).id = o.id ∧ AsGood (against t o) o ∧
          (Same t o → AsGood (against t o) t) := by
        intro o
        unfold against
        by_cases k : Same t o ∧ ¬ AsGood o t
        · rw [if_pos k]
          exact ⟨k.1.1, (AsGood.total t o).resolve_right k.2, fun _ => AsGood.refl t⟩
        · rw [if_neg k]
          refine ⟨rfl, AsGood.refl o, fun hs => ?_⟩
          by_contra hc
          exact k ⟨hs, hc⟩
      constructor
      · intro o ho
        obtain ⟨o', ho', rfl⟩ := List.mem_map.1 ho
        unfold against
        split
        · simp
        · exact List.mem_append_left _ (h1 o' ho')
      · intro d hd
        rcases List.mem_append.1 hd with hd | hd
        · obtain ⟨o, ho, k1, k2⟩ := h2 d hd
          exact ⟨against t o, List.mem_map_of_mem ho, (hag o).1.trans k1, (hag o).2.1.trans k2⟩
        · obtain rfl : d = t := by simpa using hd
          obtain ⟨o, ho, hs⟩ := h
          exact ⟨against d o, List.mem_map_of_mem ho, (hag o).1.trans hs.1.symm, (hag o).2.2 hs⟩
    · rw [if_neg h]
      constructor
      · intro o ho
        rcases List.mem_append.1 ho with ho | ho
        · exact List.mem_append_left _ (h1 o ho)
        · exact List.mem_append_right _ ho
      · intro d hd
        rcases List.mem_append.1 hd with hd | hd
        · obtain ⟨o, ho, k⟩ := h2 d hd
          exact ⟨o, List.mem_append_left _ ho, k⟩
        · exact ⟨d, List.mem_append_right _ hd, rfl, AsGood.refl d⟩

theorem distance2D_comm (p q : P2) : distance2D p q = distance2D q p := by
  unfold distance2D; congr 1; ring

theorem same_symm {a b : Found} (h : Same a b) : Same b a := by
  refine ⟨h.1.symm, ?_⟩
  have := h.2
  unfold overlapsTooMuch at this ⊢
  simp only at this ⊢
  rw [distance2D_comm]
  linarith

/-- **C138 (partial).** If the detections fall into groups, each at one place (a detection that is at
the place of two others has these at one place, and every one is at its own place), then exactly one of
each group is reported, and it is at least as good as every other of the group.  Missing: detections
that do not fall into groups, see the counterexample. -/
theorem C138_once_partial (ds : List Found) (hr : ∀ a ∈ ds, Same a a)
    (ht : ∀ a ∈ ds, ∀ b ∈ ds, ∀ c ∈ ds, Same a b → Same b c → Same a c) :
    (resolve ds).Pairwise (fun a b => ¬ Same a b) ∧
    ∀ d ∈ ds, ∃ o ∈ resolve ds, Same o d ∧ (∀ e ∈ ds, Same e d → AsGood o e) ∧
      ∀ o' ∈ resolve ds, Same o' d → o' = o := by
  suffices H : (∀ o ∈ resolve ds, o ∈ ds) → (resolve ds).Pairwise (fun a b => ¬ Same a b) ∧
      ∀ d ∈ ds, ∃ o ∈ resolve ds, Same o d ∧ AsGood o d by
    have hsub := (C138_reported ds).1
    obtain ⟨h1, h2⟩ := H hsub
    refine ⟨h1, fun d hd => ?_⟩
    obtain ⟨o, ho, k1, k2⟩ := h2 d hd
    have huniq : ∀ o' ∈ resolve ds, Same o' d → o' = o := by
      intro o' ho' k'
      by_contra hne
      have hs : Same o' o := ht o' (hsub _ ho') d hd o (hsub _ ho) k' (same_symm k1)
      obtain ⟨i, hi, rfl⟩ := List.getElem_of_mem ho
      obtain ⟨j, hj, rfl⟩ := List.getElem_of_mem ho'
      have hp := List.pairwise_iff_getElem.1 h1
      rcases Nat.lt_trichotomy i j with h | h | h
      · exact hp i j hi hj h (same_symm hs)
      · subst h; exact hne rfl
      · exact hp j i hj hi h hs
    refine ⟨o, ho, k1, ?_, huniq⟩
    intro e he hs
    obtain ⟨o2, ho2, m1, m2⟩ := h2 e he
    have : o2 = o := huniq o2 ho2 (ht o2 (hsub _ ho2) e he d hd m1 hs)
    rw [← this]; exact m2
  intro _
  refine resolve_inv (fun seen good => (∀ a ∈ seen, Same a a) →
      (∀ a ∈ seen, ∀ b ∈ seen, ∀ c ∈ seen, Same a b → Same b c → Same a c) →
      (∀ o ∈ good, o ∈ seen) ∧ good.Pairwise (fun a b => ¬ Same a b) ∧
      ∀ d ∈ seen, ∃ o ∈ good, Same o d ∧ AsGood o d) ?_ ?_ ds hr ht |>.2
  · simp
  · intro seen good t ih hr ht
    have up : ∀ a ∈ seen, a ∈ seen ++ [t] := fun a ha => List.mem_append_left _ ha
    have htm : t ∈ seen ++ [t] := by simp
    obtain ⟨h1, h2, h3⟩ := ih (fun a ha => hr a (up a ha))
      (fun a ha b hb c hc => ht a (up a ha) b (up b hb) c (up c hc))
    rw [absorb_eq]
    by_cases h : ∃ o ∈ good, Same t o
    · rw [if_pos h]
      have hag : ∀ o ∈ good, (against t o ∈ seen ++ [t]) ∧ Same (against t o) o ∧ AsGood (against t o) o ∧
          (Same t o → AsGood (against t o) t) := by
        intro o ho
        unfold against
        by_cases k : Same t o ∧ ¬ AsGood o t
        · rw [if_pos k]
          exact ⟨htm, k.1, (AsGood.total t o).resolve_right k.2, fun _ => AsGood.refl t⟩
        · rw [if_neg k]
          refine ⟨up o (h1 o ho), hr o (up o (h1 o ho)), AsGood.refl o, fun hs => ?_⟩
          by_contra hc
          exact k ⟨hs, hc⟩
      refine ⟨?_, ?_, ?_⟩
      · intro o ho
        obtain ⟨o', ho', rfl⟩ := List.mem_map.1 ho
        exact (hag o' ho').1
      · rw [List.pairwise_map]
        refine List.Pairwise.imp_of_mem ?_ h2
        intro a b ha hb hab hs
        refine hab (ht a (up a (h1 a ha)) (against t a) (hag a ha).1 b (up b (h1 b hb))
          (same_symm (hag a ha).2.1) ?_)
        exact ht _ (hag a ha).1 _ (hag b hb).1 b (up b (h1 b hb)) hs (hag b hb).2.1
      · intro d hd
        rcases List.mem_append.1 hd with hd | hd
        · obtain ⟨o, ho, k1, k2⟩ := h3 d hd
          exact ⟨against t o, List.mem_map_of_mem ho,
            ht _ (hag o ho).1 o (up o (h1 o ho)) d (up d hd) (hag o ho).2.1 k1, (hag o ho).2.2.1.trans k2⟩
        · obtain rfl : d = t := by simpa using hd
          obtain ⟨o, ho, hs⟩ := h
          exact ⟨against d o, List.mem_map_of_mem ho,
            ht _ (hag o ho).1 o (up o (h1 o ho)) d htm (hag o ho).2.1 (same_symm hs), (hag o ho).2.2.2 hs⟩
    · rw [if_neg h]
      refine ⟨?_, ?_, ?_⟩
      · intro o ho
        rcases List.mem_append.1 ho with ho | ho
        · exact up o (h1 o ho)
        · exact List.mem_append_right _ ho
      · rw [List.pairwise_append]
        refine ⟨h2, by simp, ?_⟩
        intro a ha b hb hs
        obtain rfl : b = t := by simpa using hb
        exact h ⟨a, ha, same_symm hs⟩
      · intro d hd
        rcases List.mem_append.1 hd with hd | hd
        · obtain ⟨o, ho, k⟩ := h3 d hd
          exact ⟨o, List.mem_append_left _ ho, k⟩
        · obtain rfl : d = t := by simpa using hd
          exact ⟨d, List.mem_append_right _ (by simp), hr d htm, AsGood.refl d⟩

/-! ## Squares, for examples -/

/-- A square of edge 8 centred at `(x, y)`. -/
noncomputable def square (id hamming : ℤ) (x y : ℝ) : Found :=
  ⟨id, hamming, ![(x - 4, y - 4), (x + 4, y - 4), (x + 4, y + 4), (x - 4, y + 4)], (x, y), 32⟩

theorem square_overlaps (id₁ id₂ h₁ h₂ : ℤ) (x₁ x₂ y : ℝ) :
    overlapsTooMuch (square id₁ h₁ x₁ y) (square id₂ h₂ x₂ y) ↔ |x₁ - x₂| < 4 := by
  have e : ∀ a b c d : ℝ, distance2D (a, b) (c, d) = √((a - c) * (a - c) + (b - d) * (b - d)) :=
    fun _ _ _ _ => rfl
  have s8 : √(64 : ℝ) = 8 := by rw [show (64 : ℝ) = 8 ^ 2 by norm_num, Real.sqrt_sq (by norm_num)]
  have hx : ∀ x : ℝ, (x - 4 - (x + 4)) * (x - 4 - (x + 4)) = 64 := fun x => by ring
  have hx' : ∀ x : ℝ, (x + 4 - (x - 4)) * (x + 4 - (x - 4)) = 64 := fun x => by ring
  unfold overlapsTooMuch square
  simp only [e, Matrix.cons_val, sub_self, mul_zero, add_zero, zero_add, hx, hx', s8]
  rw [Real.sqrt_mul_self_eq_abs]
  norm_num

/-- Non-vacuity: two detections at one place, one elsewhere. -/
example : (∀ a ∈ [square 7 1 0 0, square 7 0 1 0, square 7 0 50 0], Same a a) ∧
    (∀ a ∈ [square 7 1 0 0, square 7 0 1 0, square 7 0 50 0],
      ∀ b ∈ [square 7 1 0 0, square 7 0 1 0, square 7 0 50 0],
      ∀ c ∈ [square 7 1 0 0, square 7 0 1 0, square 7 0 50 0], Same a b → Same b c → Same a c) := by
  simp only [List.forall_mem_cons, Same, square_overlaps]
  have hid : ∀ i h x y, (square i h x y).id = i := fun _ _ _ _ => rfl
  simp only [hid]
  norm_num

/-- **C138 is false.**  Two places, and between them a detection without wrong bits: it takes the place
of both kept detections and the same detection is reported twice.  With a better detection at one of
the places, two detections of one tag that overlap are reported. -/
theorem C138_counterexample :
    (∃ a b c : Found, resolve [a, b, c] = [c, c] ∧ ¬ Same a b) ∧
    ∃ a b c : Found, ∃ o₁ o₂, resolve [a, b, c] = [o₁, o₂] ∧ o₁ ≠ o₂ ∧ Same o₁ o₂ ∧ ¬ Same a b := by
  have hid : ∀ i h x y, (square i h x y).id = i := fun _ _ _ _ => rfl
  have hh : ∀ i h x y, (square i h x y).hamming = h := fun _ _ _ _ => rfl
  have hp : ∀ i h x y, (square i h x y).perimeter = 32 := fun _ _ _ _ => rfl
  constructor
  · refine ⟨square 7 1 0 0, square 7 1 5 0, square 7 0 (5 / 2) 0, ?_, ?_⟩
    · simp only [resolve, List.foldl_cons, List.foldl_nil, absorb_eq, List.not_mem_nil, false_and,
        exists_false, if_false, List.nil_append, List.mem_cons, or_false, exists_eq_left, Same,
        square_overlaps, hid, true_and]
      norm_num [against, Same, AsGood, square_overlaps, hid, hh, hp, abs_of_nonneg, abs_of_nonpos]
    · simp only [Same, square_overlaps]; norm_num
  · refine ⟨square 7 1 0 0, square 7 0 5 0, square 7 0 (5 / 2) 0, square 7 0 (5 / 2) 0, square 7 0 5 0, ?_, ?_, ?_, ?_⟩
    · simp only [resolve, List.foldl_cons, List.foldl_nil, absorb_eq, List.not_mem_nil, false_and,
        exists_false, if_false, List.nil_append, List.mem_cons, or_false, exists_eq_left, Same,
        square_overlaps, hid, true_and]
      norm_num [against, Same, AsGood, square_overlaps, hid, hh, hp, abs_of_nonneg, abs_of_nonpos]
    · intro h
      have := congrArg (fun f => f.cxy.1) h
      norm_num [square] at this
    · simp only [Same, square_overlaps, hid]; norm_num [abs_of_nonpos]
    · simp only [Same, square_overlaps]; norm_num

end Kalibr.Quads
