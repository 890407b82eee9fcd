import Verif.MatDv.Model
import Mathlib.Tactic.FinCases
import Mathlib.Data.Fin.VecNotation
import Mathlib.Data.List.GetD

namespace Kalibr.MatDv

theorem ent_inj {i k : ℕ} (hi : i < 9) (hk : k < 9) (h : row i = row k ∧ col i = col k) : i = k := by
  obtain ⟨h1, h2⟩ := h
  simp only [row, col, Fin.mk.injEq] at h1 h2
  omega

open Classical in
theorem count_eq (U : M3) (is : List ℕ) : ∀ n, count U is n = n + (is.filter fun i => U (row i) (col i) = 1).length := by
  induction is with
  | nil => intro n; simp [count]
  | cons i is ih =>
    intro n
    rw [count, ih, List.filter_cons]
    by_cases h : U (row i) (col i) = 1
    · simp [h]; omega
    · simp [h]

/-- The number of estimated entries among the first `n`. -/
noncomputable def rank (U : M3) (n : ℕ) : ℕ := count U (List.range n) 0

open Classical in
theorem rank_succ (U : M3) (n : ℕ) : rank U (n + 1) = rank U n + if U (row n) (col n) = 1 then 1 else 0 := by
  unfold rank
  rw [count_eq, count_eq, List.range_succ, List.filter_append, List.length_append]
  by_cases h : U (row n) (col n) = 1 <;> simp [h]

/-- What the update has done after the entries below `n`. -/
noncomputable def after (U : M3) (dp : List ℝ) (A : M3) (n : ℕ) : M3 := fun r c =>
  if r.val + 3 * c.val < n then A r c + U r c * dp.getD (rank U (r.val + 3 * c.val)) 0 else A r c

theorem after_put (U : M3) (dp : List ℝ) (A : M3) (n : ℕ) (hn : n < 9) :
    put (after U dp A n) n (after U dp A n (row n) (col n) + U (row n) (col n) * dp.getD (rank U n) 0) =
      after U dp A (n + 1) := by
  have he : (row n).val + 3 * (col n).val = n := by simp only [row, col]; omega
  funext r c
  unfold put
  split_ifs with h
  · obtain ⟨rfl, rfl⟩ := h
    simp [after, he]
  · have hne : r.val + 3 * c.val ≠ n := by
      intro e
      apply h
      constructor <;> (apply Fin.ext; simp only [row, col]; omega)
    unfold after
    by_cases hl : r.val + 3 * c.val < n
    · rw [if_pos hl, if_pos (by omega)]
    · rw [if_neg hl, if_neg (by omega)]

theorem range_drop (n m : ℕ) : (List.range (n + m + 1)).drop n = n :: (List.range (n + m + 1)).drop (n + 1) := by
  rw [List.drop_eq_getElem_cons (by rw [List.length_range]; omega), List.getElem_range]

theorem loop_ok (U : M3) (dp : List ℝ) (A : M3) (h : ∀ i < 9, rank U i < dp.length) (m : ℕ) :
    ∀ n, n + m = 9 → updateLoop U dp ((List.range 9).drop n) (rank U n) (after U dp A n) = .ok (after U dp A 9) := by
  induction m with
  | zero => intro n hn; obtain rfl : n = 9 := by omega
            rfl
  | succ m ih =>
    intro n hn
    have hd : (List.range 9).drop n = n :: (List.range 9).drop (n + 1) := by
      have := range_drop n m
      rwa [show n + m + 1 = 9 by omega] at this
    have hr := h n (by omega)
    rw [hd, updateLoop, List.getElem?_eq_getElem hr]
    have hg : dp[rank U n] = dp.getD (rank U n) 0 := (List.getD_eq_getElem _ _ hr).symm
    simp only [hg]
    rw [after_put U dp A n (by omega)]
    have := ih (n + 1) (by omega)
    rw [rank_succ] at this
    convert this using 2
    split_ifs <;> rfl

theorem loop_ub (U : M3) (dp : List ℝ) (i : ℕ) (hi : i < 9) (h : dp.length ≤ rank U i) (m : ℕ) :
    ∀ n (A : M3), n + m = i → updateLoop U dp ((List.range 9).drop n) (rank U n) A = .ub := by
  induction m with
  | zero =>
    intro n A hn
    have hd : (List.range 9).drop n = n :: (List.range 9).drop (n + 1) := by
      have := range_drop n (8 - n)
      rwa [show n + (8 - n) + 1 = 9 by omega] at this
    rw [hd, updateLoop, List.getElem?_eq_none (by rw [show n = i by omega]; exact h)]
  | succ m ih =>
    intro n A hn
    have hd : (List.range 9).drop n = n :: (List.range 9).drop (n + 1) := by
      have := range_drop n (8 - n)
      rwa [show n + (8 - n) + 1 = 9 by omega] at this
    rw [hd, updateLoop]
    cases dp[rank U n]? with
    | none => rfl
    | some d =>
      simp only
      have := ih (n + 1) (put A n (A (row n) (col n) + U (row n) (col n) * d)) (by omega)
      rw [rank_succ] at this
      convert this using 2
      split_ifs <;> rfl

theorem rank_mono (U : M3) {i k : ℕ} (h : i ≤ k) : rank U i ≤ rank U k := by
  induction k with
  | zero => rw [Nat.le_zero.1 h]
  | succ k ih =>
    rcases Nat.lt_or_eq_of_le h with hl | rfl
    · exact (ih (by omega)).trans (by rw [rank_succ]; omega)
    · exact le_refl _

open Classical in
theorem rank_before (U : M3) (r c : Fin 3) : rank U (r.val + 3 * c.val) = before U r c := by
  unfold before
  have h0 : rank U 0 = 0 := rfl
  fin_cases r <;> fin_cases c <;>
    simp [rank_succ, h0, row, col, Finset.card_filter, -Finset.sum_boole, Fintype.sum_prod_type, Fin.sum_univ_three, Fin.lt_def] <;> ring

open Classical in
theorem rank_unknowns (U : M3) : rank U 9 = unknowns U := by
  unfold unknowns
  have h0 : rank U 0 = 0 := rfl
  simp [rank_succ, h0, row, col, Finset.card_filter, -Finset.sum_boole, Fintype.sum_prod_type, Fin.sum_univ_three]
  ring

/-- C198: the number of unknowns is that of the ones in the pattern, and of all entries without one. -/
theorem C198_dimension (A U : M3) :
    (Dv.new A U).minimalDimensions = unknowns U ∧ (Dv.newAll A).minimalDimensions = unknowns (fun _ _ => 1) := by
  refine ⟨rank_unknowns U, ?_⟩
  simp [Dv.minimalDimensions, Dv.newAll, unknowns]

/-- C198: an update adds to the estimated entries, down the columns, the elements of the update in their order, and leaves the
others, whatever follows the update in memory — if the entry in the last row and column is estimated or something follows. -/
theorem C198_update_partial (v : Dv) (dp rest : List ℝ) (hd : dp.length = unknowns v.pattern)
    (hl : v.pattern 2 2 = 1 ∨ rest ≠ []) :
    ∃ A, v.update (dp ++ rest) = .ok { v with A := A, Aa := v.A } ∧
      ∀ r c, (v.pattern r c = 0 → A r c = v.A r c) ∧
        (v.pattern r c = 1 → ∃ h : before v.pattern r c < dp.length, A r c = v.A r c + dp[before v.pattern r c]) := by
  have h9 : rank v.pattern 9 = dp.length := by rw [rank_unknowns, hd]
  have hs := rank_succ v.pattern 8
  have hr : row 8 = 2 ∧ col 8 = 2 := ⟨rfl, rfl⟩
  rw [hr.1, hr.2, h9] at hs
  have hall : ∀ i < 9, rank v.pattern i < (dp ++ rest).length := by
    intro i hi
    have := rank_mono v.pattern (show i ≤ 8 by omega)
    rw [List.length_append]
    rcases hl with h | h
    · rw [if_pos h] at hs; omega
    · have := List.length_pos_iff.2 h
      split_ifs at hs <;> omega
  have hloop := loop_ok v.pattern (dp ++ rest) v.A hall 9 0 rfl
  have h0 : after v.pattern (dp ++ rest) v.A 0 = v.A := by funext r c; simp [after]
  rw [h0] at hloop
  refine ⟨after v.pattern (dp ++ rest) v.A 9, ?_, ?_⟩
  · unfold Dv.update
    rw [List.drop_zero] at hloop
    change (updateLoop _ _ (List.range 9) (rank v.pattern 0) _).bind _ = _
    rw [hloop]
    rfl
  · intro r c
    have hlt : r.val + 3 * c.val < 9 := by omega
    refine ⟨fun h => by simp [after, h], fun h => ?_⟩
    have hb : before v.pattern r c < dp.length := by
      rw [← rank_before, ← h9]
      have e := rank_succ v.pattern (r.val + 3 * c.val)
      have hrow : row (r.val + 3 * c.val) = r := by apply Fin.ext; simp only [row]; omega
      have hcol : col (r.val + 3 * c.val) = c := by apply Fin.ext; simp only [col]; omega
      rw [hrow, hcol, if_pos h] at e
      have := rank_mono v.pattern (show r.val + 3 * c.val + 1 ≤ 9 by omega)
      omega
    refine ⟨hb, ?_⟩
    simp only [after, if_pos hlt, h, one_mul, rank_before]
    congr 1
    rw [List.getD_eq_getElem _ _ (by rw [List.length_append]; omega), List.getElem_append_left hb]

/-- C198 is false: if the last entry is not estimated and nothing follows the update, an update of the right size is read
beyond its end.  So is the empty update of a matrix of which nothing is estimated. -/
theorem C198_counterexample (v : Dv) (dp : List ℝ) (hd : dp.length = unknowns v.pattern) (hl : v.pattern 2 2 ≠ 1) :
    v.update dp = .ub := by
  have h9 : rank v.pattern 9 = dp.length := by rw [rank_unknowns, hd]
  have hs := rank_succ v.pattern 8
  have hr : row 8 = 2 ∧ col 8 = 2 := ⟨rfl, rfl⟩
  rw [hr.1, hr.2, h9, if_neg hl] at hs
  have := loop_ub v.pattern dp 8 (by omega) (by omega) 8 0 v.A rfl
  unfold Dv.update
  rw [List.drop_zero] at this
  change (updateLoop _ _ (List.range 9) (rank v.pattern 0) _).bind _ = _
  rw [this]
  rfl

/-- C198: reverting undoes the last update or assignment. -/
theorem C198_revert (v : Dv) (dp : List ℝ) (B : M3) :
    (∀ w, v.update dp = .ok w → w.revert.A = v.A ∧ w.pattern = v.pattern) ∧
    (v.setParameters B).A = B ∧ (v.setParameters B).revert.A = v.A := by
  refine ⟨fun w h => ?_, rfl, rfl⟩
  unfold Dv.update at h
  cases hl : updateLoop v.pattern dp (List.range 9) 0 v.A with
  | ok A => rw [hl] at h; cases h; exact ⟨rfl, rfl⟩
  | raise => rw [hl] at h; cases h
  | ub => rw [hl] at h; cases h

theorem put_other (A : M3) {i k : ℕ} (hi : i < 9) (hk : k < 9) (h : k ≠ i) (x : ℝ) :
    put A i x (row k) (col k) = A (row k) (col k) := by
  unfold put
  rw [if_neg]
  intro e
  exact h (ent_inj hk hi e)

theorem loop_keeps (U : M3) (dp : List ℝ) (is : List ℕ) : ∀ j A A' k, (∀ i ∈ is, i < 9) → k < 9 → k ∉ is →
    updateLoop U dp is j A = .ok A' → A' (row k) (col k) = A (row k) (col k) := by
  induction is with
  | nil => intro j A A' k _ _ _ h; simp only [updateLoop] at h; cases h; rfl
  | cons i is ih =>
    intro j A A' k hi hk hn h
    rw [updateLoop] at h
    cases hd : dp[j]? with
    | none => rw [hd] at h; cases h
    | some d =>
      rw [hd] at h
      rw [ih _ _ _ k (fun x hx => hi x (List.mem_cons_of_mem _ hx)) hk (fun hx => hn (List.mem_cons_of_mem _ hx)) h]
      exact put_other A (hi i List.mem_cons_self) hk (fun e => hn (e ▸ List.mem_cons_self)) _

theorem loop_change (U : M3) (hp : IsPattern U) (dp : List ℝ) (G : ℕ → ℝ) (is : List ℕ) : ∀ j A A', (∀ i ∈ is, i < 9) →
    is.Nodup → updateLoop U dp is j A = .ok A' →
    (is.map fun i => G i * (A' (row i) (col i) - A (row i) (col i))).sum =
      (List.zipWith (· * ·) (jacobian U G is) (dp.drop j)).sum := by
  induction is with
  | nil => intro j A A' _ _ h; simp [jacobian]
  | cons i is ih =>
    intro j A A' hi hn h
    rw [updateLoop] at h
    obtain ⟨hn1, hn2⟩ := List.nodup_cons.1 hn
    cases hd : dp[j]? with
    | none => rw [hd] at h; cases h
    | some d =>
      rw [hd] at h
      simp only at h
      have hi9 := hi i List.mem_cons_self
      have hi' : ∀ x ∈ is, x < 9 := fun x hx => hi x (List.mem_cons_of_mem _ hx)
      have hk := loop_keeps U dp is _ _ _ i hi' hi9 hn1 h
      have e := ih _ _ _ hi' hn2 h
      have hput : put A i (A (row i) (col i) + U (row i) (col i) * d) (row i) (col i) =
          A (row i) (col i) + U (row i) (col i) * d := by simp [put]
      rw [hput] at hk
      have hmap : (is.map fun k => G k * (A' (row k) (col k) -
            put A i (A (row i) (col i) + U (row i) (col i) * d) (row k) (col k))) =
          is.map fun k => G k * (A' (row k) (col k) - A (row k) (col k)) := by
        apply List.map_congr_left
        intro k hkm
        rw [put_other A hi9 (hi' k hkm) (fun e => hn1 (e ▸ hkm))]
      rw [hmap] at e
      rw [List.map_cons, List.sum_cons, hk, e, jacobian]
      rcases hp (row i) (col i) with h0 | h1
      · have hne : ¬ U (row i) (col i) = 1 := by rw [h0]; norm_num
        rw [if_neg hne, if_neg hne, h0]
        ring
      · have hj : j < dp.length := (List.getElem?_eq_some_iff.1 hd).1
        have hdj : dp[j] = d := (List.getElem?_eq_some_iff.1 hd).2
        rw [if_pos h1, if_pos h1, h1, List.drop_eq_getElem_cons hj, hdj, List.zipWith_cons_cons, List.sum_cons]
        ring

/-- C198: the Jacobian is exact.  Whatever is linear in the entries of the matrix, with derivative `G` with respect to the
entries down the columns, changes by the Jacobian times the update. -/
theorem C198_jacobian (v w : Dv) (hp : IsPattern v.pattern) (dp : List ℝ) (G : ℕ → ℝ) (h : v.update dp = .ok w) :
    (∑ c : Fin 3, ∑ r : Fin 3, G (r.val + 3 * c.val) * (w.A r c - v.A r c)) =
      (List.zipWith (· * ·) (jacobian v.pattern G (List.range 9)) dp).sum := by
  unfold Dv.update at h
  cases hl : updateLoop v.pattern dp (List.range 9) 0 v.A with
  | raise => rw [hl] at h; cases h
  | ub => rw [hl] at h; cases h
  | ok A =>
    rw [hl] at h
    cases h
    have e := loop_change v.pattern hp dp G (List.range 9) 0 v.A A (fun i hi => by simpa using hi) List.nodup_range hl
    rw [List.drop_zero] at e
    rw [← e]
    simp [List.range_succ, Fin.sum_univ_three, row, col]
    ring

open Classical in
theorem unknowns_ite (p : Fin 3 → Fin 3 → Bool) : unknowns (fun r c => if p r c then 1 else 0) =
    (Finset.univ.filter fun e : Fin 3 × Fin 3 => p e.1 e.2).card := by
  unfold unknowns
  congr 1
  ext e
  simp

/-- A lower triangular matrix meets the hypotheses, one of which the last row is kept those of the counterexample. -/
example : IsPattern (fun r c => if decide (c ≤ r) then 1 else 0) ∧ unknowns (fun r c => if decide (c ≤ r) then 1 else 0) = 6 ∧
    unknowns (fun r _ => if decide (r ≠ 2) then 1 else 0) = 6 := by
  refine ⟨fun r c => ?_, ?_, ?_⟩
  · by_cases h : c ≤ r <;> simp [h]
  · rw [unknowns_ite fun r c => decide (c ≤ r)]; decide
  · rw [unknowns_ite fun r _ => decide (r ≠ 2)]; decide

end Kalibr.MatDv
