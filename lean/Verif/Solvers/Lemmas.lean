import Verif.Solvers.Spec
import Verif.CCM.Props
import Verif.Tactics

/-!
# Least squares, and what stays the same in the arrays
-/

namespace Kalibr.Solvers

open Jacobian CCM CCS

variable {D : Type}

/-! ## Least squares -/

/-- The normal equations suffice. -/
theorem sq_min (A : Mat ℝ) (b x : ℕ → ℝ)
    (h : ∀ i < A.cols, ∑ k ∈ Finset.range A.rows, A.get k i * (∑ j ∈ Finset.range A.cols, A.get k j * x j - b k) = 0) (y : ℕ → ℝ) :
    sq A b x ≤ sq A b y := by
  unfold sq
  obtain ⟨r, hr⟩ : ∃ r : ℕ → ℝ, ∀ k, r k = ∑ j ∈ Finset.range A.cols, A.get k j * x j - b k := ⟨_, fun _ => rfl⟩
  obtain ⟨z, hz⟩ : ∃ z : ℕ → ℝ, ∀ k, z k = ∑ j ∈ Finset.range A.cols, A.get k j * (y j - x j) := ⟨_, fun _ => rfl⟩
  have hy : ∀ k, ∑ j ∈ Finset.range A.cols, A.get k j * y j - b k = r k + z k := by
    intro k
    rw [hr, hz]
    have : ∑ j ∈ Finset.range A.cols, A.get k j * y j =
        ∑ j ∈ Finset.range A.cols, A.get k j * x j + ∑ j ∈ Finset.range A.cols, A.get k j * (y j - x j) := by
      rw [← Finset.sum_add_distrib]
      exact Finset.sum_congr rfl fun j _ => by ring
    rw [this]
    ring
  have hcross : ∑ k ∈ Finset.range A.rows, z k * r k = 0 := by
    have : ∀ k ∈ Finset.range A.rows, z k * r k = ∑ j ∈ Finset.range A.cols, (y j - x j) * (A.get k j * r k) := by
      intro k _
      rw [hz, Finset.sum_mul]
      exact Finset.sum_congr rfl fun j _ => by ring
    rw [Finset.sum_congr rfl this, Finset.sum_comm]
    apply Finset.sum_eq_zero
    intro j hj
    rw [← Finset.mul_sum]
    have := h j (Finset.mem_range.1 hj)
    rw [Finset.sum_congr rfl fun k _ => by rw [hr k], this, mul_zero]
  simp only [hy, ← hr]
  have : ∀ k ∈ Finset.range A.rows, (r k + z k) ^ 2 = r k ^ 2 + (2 * (z k * r k) + z k ^ 2) := fun k _ => by ring
  rw [Finset.sum_congr rfl this, Finset.sum_add_distrib, Finset.sum_add_distrib, ← Finset.mul_sum, hcross]
  have : 0 ≤ ∑ k ∈ Finset.range A.rows, z k ^ 2 := Finset.sum_nonneg fun k _ => sq_nonneg _
  linarith

/-- A diagonal below the matrix and zeros below the right hand side add the damping. -/
theorem sq_vcat (J : Mat ℝ) (e c x : ℕ → ℝ) : sq (vcat J c) (padded J.rows e) x = damped J e c x := by
  unfold sq damped vcat padded
  simp only
  rw [Finset.sum_range_add]
  congr 1
  · apply Finset.sum_congr rfl
    intro k hk
    rw [if_pos (Finset.mem_range.1 hk)]
    congr 2
    apply Finset.sum_congr rfl
    intro i _
    rw [if_pos (Finset.mem_range.1 hk)]
  · apply Finset.sum_congr rfl
    intro k hk
    rw [if_neg (by omega), sub_zero]
    congr 1
    rw [Finset.sum_eq_single k]
    · rw [if_neg (by omega), if_pos (by omega)]
    · intro i _ hi
      rw [if_neg (by omega), if_neg (by omega), zero_mul]
    · intro h
      exact absurd hk h

/-- The transposed matrix with the diagonal to the right means the same. -/
theorem hcat_transpose (M : Mat ℝ) (c : List ℝ) (hc : c.length = M.rows) :
    ((hcat M (diagMat c)).transpose).Same (vcat M.transpose fun i => c.getD i 0) := by
  refine ⟨?_, rfl, ?_⟩
  · show M.cols + c.length = M.cols + M.rows
    rw [hc]
  · intro k i _ _
    show (if k < M.cols then M.get i k else if i = k - M.cols then c.getD i 0 else 0) =
      if k < M.cols then M.get i k else if k - M.cols = i then c.getD i 0 else 0
    by_cases hk : k < M.cols
    · rw [if_pos hk, if_pos hk]
    · rw [if_neg hk, if_neg hk]
      by_cases hi : i = k - M.cols
      · rw [if_pos hi, if_pos hi.symm]
      · rw [if_neg hi, if_neg fun h => hi h.symm]

theorem sq_same {A B : Mat ℝ} (h : A.Same B) (b x : ℕ → ℝ) : sq A b x = sq B b x := by
  obtain ⟨h1, h2, h3⟩ := h
  unfold sq
  rw [h1]
  apply Finset.sum_congr rfl
  intro k hk
  rw [h2]
  congr 2
  apply Finset.sum_congr rfl
  intro i hi
  rw [h3 k i (by rw [h1]; exact Finset.mem_range.1 hk) (by rw [h2]; exact Finset.mem_range.1 hi)]

/-! ## The structure of the arrays -/

/-- The columns `b` belong to a term of this dimension with these variables. -/
def ShapeE (env : Env D ℝ) (cb : D → ℕ) (e : ℕ × List D) (b : List (List (ℕ × ℝ))) : Prop :=
  b.length = e.1 ∧ ∀ l ∈ b, l.map (·.1) = pat env cb (activeSorted env e.2)

/-- The rows in each column. -/
def keys (L : List (List (ℕ × ℝ))) : List (List ℕ) := L.map fun l => l.map (·.1)

theorem cps_keys (n : ℕ) (L : List (List (ℕ × ℝ))) : cps n L = cps n (keys L) := by
  induction L generalizing n with
  | nil => rfl
  | cons l L ih =>
    show n :: cps _ L = n :: cps (n + (l.map (·.1)).length) (keys L)
    rw [ih, List.length_map]

theorem ofCols_keys {L L' : List (List (ℕ × ℝ))} (h : keys L = keys L') :
    (ofCols L).cp = (ofCols L').cp ∧ (ofCols L).ci = (ofCols L').ci := by
  constructor
  · show cps 0 L = cps 0 L'
    rw [cps_keys, cps_keys 0 L', h]
  · show L.flatten.map (·.1) = L'.flatten.map (·.1)
    rw [List.map_flatten, List.map_flatten]
    exact congrArg List.flatten h

theorem shapes_keys {env : Env D ℝ} {cb : D → ℕ} {es : List (ℕ × List D)} {B : List (List (List (ℕ × ℝ)))}
    (h : List.Forall₂ (ShapeE env cb) es B) :
    keys B.flatten = es.flatMap fun e => List.replicate e.1 (pat env cb (activeSorted env e.2)) := by
  induction h with
  | nil => rfl
  | @cons e b es B h1 _ ih =>
    rw [List.flatten_cons, List.flatMap_cons, ← ih]
    show List.map _ (b ++ B.flatten) = _
    rw [List.map_append]
    congr 1
    rw [← h1.1, List.eq_replicate_iff]
    refine ⟨by simp, ?_⟩
    intro l hl
    obtain ⟨l', hl', rfl⟩ := List.mem_map.1 hl
    exact h1.2 l' hl'

theorem keys_length (L : List (List (ℕ × ℝ))) : (keys L).length = L.length := List.length_map ..

theorem zip_terms {env : Env D ℝ} {es : List (ℕ × List D)} {js : List (Container D ℝ)} (h : Matches env es js) :
    (List.zipWith (fun e j => (e.2, j)) es js).map (·.2) = js ∧
    (List.zipWith (fun e j => (e.2, j)) es js).map (fun t => (t.2.rows, t.1)) = es ∧
    (List.zipWith (fun e j => (e.2, j)) es js).length = es.length ∧
    (∀ t ∈ List.zipWith (fun e j => (e.2, j)) es js, t.2.map.map (·.1) = activeSorted env t.1 ∧ Fits env t.2) ∧
    (∀ j ∈ js, Ordered env j ∧ Fits env j) ∧
    ∀ (cb : D → ℕ) (B : List (List (List (ℕ × ℝ)))), List.Forall₂ (ShapeE env cb) es B ↔
      List.Forall₂ (Shape env cb) (List.zipWith (fun e j => (e.2, j)) es js) B := by
  induction h with
  | nil => simp
  | @cons e j es js h1 h2 ih =>
    obtain ⟨i1, i2, i3, i4, i5, i6⟩ := ih
    simp only [List.zipWith_cons_cons, List.map_cons, i1, i2, List.length_cons, i3]
    refine ⟨trivial, by rw [h1.1], trivial, ?_, ?_, ?_⟩
    · intro t ht
      rcases List.mem_cons.1 ht with rfl | ht
      · exact ⟨h1.2.1, h1.2.2.2⟩
      · exact i4 t ht
    · intro j' hj'
      rcases List.mem_cons.1 hj' with rfl | hj'
      · exact h1.2.2
      · exact i5 j' hj'
    · intro cb B
      cases B with
      | nil => simp
      | cons b B =>
        rw [List.forall₂_cons, List.forall₂_cons, i6 cb B]
        unfold ShapeE Shape
        rw [h1.2.1, h1.1]

theorem stackT_cols (env : Env D ℝ) (cb : D → ℕ) (rows : ℕ) (js : List (Container D ℝ)) :
    (stackT env cb rows js).cols = (js.map (·.rows)).sum ∧ (stackT env cb rows js).rows = rows := by
  have : ∀ (js : List (Container D ℝ)) (M : Mat ℝ),
      (js.foldl (fun M jc => hcat M (jacT env cb rows jc)) M).cols = M.cols + (js.map (·.rows)).sum ∧
      (js.foldl (fun M jc => hcat M (jacT env cb rows jc)) M).rows = M.rows := by
    intro js
    induction js with
    | nil => intro M; exact ⟨rfl, rfl⟩
    | cons j js ih =>
      intro M
      rw [List.foldl_cons, (ih _).1, (ih _).2, List.map_cons, List.sum_cons]
      refine ⟨?_, rfl⟩
      show M.cols + j.rows + _ = _
      omega
  unfold stackT
  rw [(this _ _).1, (this _ _).2]
  simp [Mat.zero]

theorem matches_rows {env : Env D ℝ} {es : List (ℕ × List D)} {js : List (Container D ℝ)} (h : Matches env es js) :
    js.map (·.rows) = es.map (·.1) := by
  induction h with
  | nil => rfl
  | cons h1 _ ih => rw [List.map_cons, List.map_cons, ih, h1.1]

/-- Writing the Jacobians of all terms, in any order and whatever values were there before, gives the transposed Jacobian of the problem. -/
theorem rebuild (env : Env D ℝ) (cb : D → ℕ) (rows : ℕ) (hl : Layout env cb rows) (es : List (ℕ × List D)) (B : List (List (List (ℕ × ℝ))))
    (hB : List.Forall₂ (ShapeE env cb) es B) (order : List ℕ) (ho : order.Perm (List.range es.length)) (js : List (Container D ℝ))
    (hj : Matches env es js) :
    ∃ B', List.Forall₂ (ShapeE env cb) es B' ∧
      writeAll ⟨rows, B.flatten.length, ofCols B.flatten, false⟩ (order.filterMap fun i => (js.zip (ptrsOf ℝ env cb 0 es))[i]?) =
        .ok ⟨rows, B'.flatten.length, ofCols B'.flatten, false⟩ ∧
      Is ⟨rows, B'.flatten.length, ofCols B'.flatten, false⟩ (stackT env cb rows js) := by
  obtain ⟨z1, z2, z3, z4, z5, z6⟩ := zip_terms hj
  obtain ⟨ts, hts⟩ : ∃ ts, ts = List.zipWith (fun e j => (e.2, j)) es js := ⟨_, rfl⟩
  rw [← hts] at z1 z2 z3 z4 z6
  obtain ⟨B', g1, g2, g3⟩ := writeAll_eq env cb ts z4 order
    (fun i hi => by rw [z3]; exact List.mem_range.1 (ho.mem_iff.1 hi)) B ((z6 cb B).1 hB)
    ⟨rows, B.flatten.length, ofCols B.flatten, false⟩ rfl
  rw [z1, z2] at g1
  have hlen : B.flatten.length = B'.flatten.length := by
    rw [← keys_length, ← keys_length, shapes_keys hB, shapes_keys ((z6 cb B').2 g2)]
  have hB' : B' = js.map fun jc => (List.range jc.rows).map (newCol env cb jc) := by
    rw [← z1]
    apply List.ext_getElem?
    intro i
    by_cases hi : i < ts.length
    · rw [g3 i ts[i] (List.getElem?_eq_getElem hi), if_pos (ho.mem_iff.2 (List.mem_range.2 (z3 ▸ hi)))]
      simp [hi]
    · rw [List.getElem?_eq_none (by rw [← g2.length_eq]; omega), List.getElem?_eq_none (by simp; omega)]
  refine ⟨B', (z6 cb B').2 g2, ?_, ?_, ?_, ?_⟩
  · rw [g1, hlen]
  · show (ofCols B'.flatten).Lists _
    rw [hB']
    have := stack_colsOf env cb rows hl js z5 [] (Mat.zero rows 0) rfl ⟨rfl, by simp, by simp, by simp, by simp⟩
    rw [List.nil_append] at this
    exact this.lists
  · show rows = _
    rw [(stackT_cols env cb rows js).2]
  · show B'.flatten.length = _
    rw [(stackT_cols env cb rows js).1, matches_rows hj, ← keys_length, shapes_keys ((z6 cb B').2 g2)]
    rw [List.length_flatMap]
    simp

end Kalibr.Solvers
