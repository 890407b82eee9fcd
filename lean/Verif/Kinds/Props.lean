import Verif.Kinds.Model

namespace Kalibr.Kinds

open Sparse CCM

variable {K : Type} [AddCommGroup K] [LinearOrder K]

theorem put_fits {r c i j : Nat} {v : K} (J : Mat K) (h1 : J.rows = r) (h2 : J.cols = c) :
    (put i j v J).rows = r ∧ (put i j v J).cols = c := ⟨h1, h2⟩

theorem val_put {A : SBM K} (h : WF A) {r c i j : Nat} (hc : c < A.cbi.length) (v : K) (r' c' i' j' : Nat) :
    val (A.modBlk r c (put i j v)) r' c' i' j' = if (c', r', j', i') = (c, r, j, i) then v else val A r' c' i' j' := by
  unfold val
  rw [blk_modBlk h hc]
  by_cases hb : r' = r ∧ c' = c
  · obtain ⟨rfl, rfl⟩ := hb
    rw [if_pos ⟨rfl, rfl⟩]
    by_cases he : i' = i ∧ j' = j
    · obtain ⟨rfl, rfl⟩ := he
      simp [put]
    · have hne : ¬ (c', r', j', i') = (c', r', j, i) := by
        intro e; simp only [Prod.mk.injEq, true_and] at e; exact he ⟨e.2, e.1⟩
      rw [if_neg hne]
      simp only [put, if_neg he]
      cases A.blk r' c' <;> rfl
  · have hne : ¬ (c', r', j', i') = (c, r, j, i) := by
      intro e; simp only [Prod.mk.injEq] at e; exact hb ⟨e.2.1, e.1⟩
    rw [if_neg hb, if_neg hne]

theorem wrap_fold (M : Mat K) (tol : K) (rbi cbi : List Nat) (L : List (Nat × Nat × Nat × Nat)) :
    ∀ A : SBM K, WF A → A.rbi = rbi → A.cbi = cbi → (∀ q ∈ L, q.1 < cbi.length ∧ q.2.1 < rbi.length) →
    WF (L.foldl (wrapStep M tol) A) ∧ (L.foldl (wrapStep M tol) A).rbi = rbi ∧ (L.foldl (wrapStep M tol) A).cbi = cbi ∧
    ∀ r c i j, val (L.foldl (wrapStep M tol) A) r c i j =
      if (c, r, j, i) ∈ L ∧ tol < |M.get (base rbi r + i) (base cbi c + j)| then M.get (base rbi r + i) (base cbi c + j)
      else val A r c i j := by
  induction L with
  | nil => intro A h h1 h2 _; exact ⟨h, h1, h2, fun r c i j => by simp⟩
  | cons q L ih =>
    intro A h h1 h2 hL
    subst h1 h2
    obtain ⟨bc, br, dc, dr⟩ := q
    obtain ⟨q1, q2⟩ := hL _ List.mem_cons_self
    have hL' : ∀ q ∈ L, q.1 < A.cbi.length ∧ q.2.1 < A.rbi.length := fun q hq => hL q (List.mem_cons_of_mem _ hq)
    rw [List.foldl_cons]
    by_cases hv : tol < |M.get (base A.rbi br + dr) (base A.cbi bc + dc)|
    · have e : wrapStep M tol A (bc, br, dc, dr) =
          A.modBlk br bc (put dr dc (M.get (base A.rbi br + dr) (base A.cbi bc + dc))) := by
        simp only [wrapStep, if_pos hv]
      rw [e]
      obtain ⟨a1, a2, a3, a4⟩ := ih _ (h.modBlk q2 _ (fun J => put_fits J)) rfl rfl hL'
      refine ⟨a1, a2, a3, fun r c i j => ?_⟩
      rw [a4, val_put h q1]
      by_cases he : (c, r, j, i) = (bc, br, dc, dr)
      · simp only [Prod.mk.injEq] at he
        obtain ⟨rfl, rfl, rfl, rfl⟩ := he
        rw [if_pos rfl, ite_self, if_pos ⟨List.mem_cons_self, hv⟩]
      · rw [if_neg he]
        have : (c, r, j, i) ∈ (bc, br, dc, dr) :: L ↔ (c, r, j, i) ∈ L := by
          rw [List.mem_cons]; exact ⟨fun h => h.resolve_left he, Or.inr⟩
        simp only [this]
    · have e : wrapStep M tol A (bc, br, dc, dr) = A := by simp only [wrapStep, if_neg hv]
      rw [e]
      obtain ⟨a1, a2, a3, a4⟩ := ih _ h rfl rfl hL'
      refine ⟨a1, a2, a3, fun r c i j => ?_⟩
      rw [a4]
      by_cases he : (c, r, j, i) = (bc, br, dc, dr)
      · simp only [Prod.mk.injEq] at he
        obtain ⟨rfl, rfl, rfl, rfl⟩ := he
        rw [if_neg (fun hh => hv hh.2), if_neg (fun hh => hv hh.2)]
      · have : (c, r, j, i) ∈ (bc, br, dc, dr) :: L ↔ (c, r, j, i) ∈ L := by
          rw [List.mem_cons]; exact ⟨fun h => h.resolve_left he, Or.inr⟩
        simp only [this]

omit [AddCommGroup K] [LinearOrder K] in
theorem mem_places (A : SBM K) (r c i j : Nat) : (c, r, j, i) ∈ places A ↔
    c < A.cbi.length ∧ r < A.rbi.length ∧ j < size A.cbi c ∧ i < size A.rbi r := by
  simp only [places, List.mem_flatMap, List.mem_range, List.mem_map, Prod.mk.injEq]
  constructor
  · rintro ⟨bc, h1, br, h2, dc, h3, dr, h4, rfl, rfl, rfl, rfl⟩
    exact ⟨h1, h2, h3, h4⟩
  · rintro ⟨h1, h2, h3, h4⟩
    exact ⟨c, h1, r, h2, j, h3, i, h4, rfl, rfl, rfl, rfl⟩

theorem val_new (rbi cbi : List Nat) (r c i j : Nat) : val (SBM.new (K := K) rbi cbi) r c i j = 0 := by
  unfold val SBM.blk SBM.new
  have : (List.replicate cbi.length ([] : List (Nat × Mat K))).getD c [] = [] := by
    simp only [List.getD, List.getElem?_replicate]
    split <;> rfl
  simp only [this]
  rfl

/-- C200: a block matrix takes over a dense matrix of its size: afterwards it stands for the entries above the tolerance,
whatever blocks it had.  A matrix of another size is rejected and it is left as it was. -/
theorem C200_blocks (A : SBM K) (h : WF A) (M : Mat K) (tol : K) :
    (M.rows = total A.rbi ∧ M.cols = total A.cbi → (wrapFrom A M tol).1 = .ok () ∧ WF (wrapFrom A M tol).2 ∧
      Denotes (wrapFrom A M tol).2 (above M tol) ∧ (wrapFrom A M tol).2.toDense.Same (above M tol)) ∧
    (¬ (M.rows = total A.rbi ∧ M.cols = total A.cbi) → wrapFrom A M tol = (.raise, A)) := by
  constructor
  · rintro ⟨h1, h2⟩
    have e : wrapFrom A M tol = (.ok (), (places A).foldl (wrapStep M tol) (SBM.new A.rbi A.cbi)) := by
      unfold wrapFrom
      rw [if_neg (not_not.2 h1), if_neg (not_not.2 h2)]
    obtain ⟨a1, a2, a3, a4⟩ := wrap_fold M tol A.rbi A.cbi (places A) (SBM.new A.rbi A.cbi) (new_wf h.rows h.cols) rfl rfl
      (fun q hq => by
        obtain ⟨c, r, j, i⟩ := q
        have := (mem_places A r c i j).1 hq
        exact ⟨this.1, this.2.1⟩)
    have hd : Denotes (wrapFrom A M tol).2 (above M tol) := by
      rw [e]
      refine ⟨by rw [a2]; exact h1, by rw [a3]; exact h2, ?_⟩
      intro r c i j hr hc hi hj
      rw [a2] at hr hi
      rw [a3] at hc hj
      rw [a4, val_new]
      simp only [a2, a3, above, (mem_places A r c i j).2 ⟨hc, hr, hj, hi⟩, true_and]
    have hw : WF (wrapFrom A M tol).2 := by rw [e]; exact a1
    exact ⟨by rw [e], hw, hd, ((C33_toDense _ hw).2 _ hd).symm⟩
  · intro hn
    unfold wrapFrom
    split_ifs with h1 h2
    · rfl
    · rfl
    · exact absurd ⟨not_not.1 h1, not_not.1 h2⟩ hn

theorem inner_spec (tol : K) (r n : Nat) : ∀ A : Mat K,
    ((List.range n).foldl (fun (A : Mat K) c =>
      if |A.get r c| ≤ tol then { A with get := fun i j => if i = r ∧ j = c then 0 else A.get i j } else A) A) =
    { A with get := fun i j => if i = r ∧ j < n ∧ |A.get i j| ≤ tol then 0 else A.get i j } := by
  induction n with
  | zero => intro A; simp
  | succ n ih =>
    intro A
    rw [List.range_succ, List.foldl_append, ih]
    simp only [List.foldl_cons, List.foldl_nil, true_and, Nat.lt_irrefl, false_and, if_false]
    split_ifs with h
    · congr 1
      funext i j
      by_cases hi : i = r
      · subst hi
        by_cases hj : j = n
        · subst hj; simp [h]
        · have : j < n + 1 ↔ j < n := by omega
          simp [hj, this]
      · simp [hi]
    · congr 1
      funext i j
      by_cases hi : i = r
      · subst hi
        by_cases hj : j = n
        · subst hj; simp [not_le.1 h]
        · have : j < n + 1 ↔ j < n := by omega
          simp [this]
      · simp [hi]

theorem outer_spec (tol : K) (m n : Nat) : ∀ A : Mat K,
    ((List.range n).foldl (fun A r => (List.range m).foldl (fun (A : Mat K) c =>
      if |A.get r c| ≤ tol then { A with get := fun i j => if i = r ∧ j = c then 0 else A.get i j } else A) A) A) =
    { A with get := fun i j => if i < n ∧ j < m ∧ |A.get i j| ≤ tol then 0 else A.get i j } := by
  induction n with
  | zero => intro A; simp
  | succ n ih =>
    intro A
    rw [List.range_succ, List.foldl_append, ih]
    simp only [List.foldl_cons, List.foldl_nil]
    rw [inner_spec]
    congr 1
    funext i j
    by_cases hi : i = n
    · subst hi; simp
    · have : i < n + 1 ↔ i < n := by omega
      simp [hi, this]

/-- C200: a dense matrix takes over the entries above the tolerance. -/
theorem C200_dense (M : Mat K) (tol : K) : (denseFrom M tol).Same (above M tol) := by
  unfold denseFrom
  rw [outer_spec]
  refine ⟨rfl, rfl, fun i j hi hj => ?_⟩
  change i < M.rows at hi
  change j < M.cols at hj
  simp only [above, hi, hj, true_and]
  by_cases h : |M.get i j| ≤ tol
  · rw [if_pos h, if_neg (not_lt.2 h)]
  · rw [if_neg h, if_pos (not_le.1 h)]

/-- C200: with a tolerance that is not negative the three kinds hold the same entries. -/
theorem C200_agree_partial [IsOrderedAddMonoid K] (A : SBM K) (hA : WF A) (m : CCM K) (M : Mat K) (tol : K) (ht : 0 ≤ tol)
    (hs : M.rows = total A.rbi ∧ M.cols = total A.cbi) :
    ∃ m', m.fromDense M tol = .ok m' ∧ Is m' (above M tol) ∧
      (wrapFrom A M tol).2.toDense.Same (above M tol) ∧ (denseFrom M tol).Same (above M tol) := by
  obtain ⟨m', h1, _, h2⟩ := C27_fromDense m M tol
  rw [abs_of_nonneg ht] at h2
  exact ⟨m', h1, h2, ((C200_blocks A hA M tol).1 hs).2.2.2, C200_dense M tol⟩

/-- C200 is false for a negative tolerance: the compressed matrix uses its absolute value, the others keep all entries. -/
theorem C200_counterexample :
    ((CCM.new (K := Int) 1 1).fromDense (Mat.ofRows 1 1 [[3]]) (-5)).okAnd (fun m => m.s.cx = []) ∧
    (denseFrom (Mat.ofRows 1 1 [[(3 : Int)]]) (-5)).get 0 0 = 3 ∧
    (wrapFrom (SBM.new [1] [1]) (Mat.ofRows 1 1 [[(3 : Int)]]) (-5)).2.toDense.get 0 0 = 3 := by
  decide

/-- Two by three blocks and a matrix of their size meet the hypotheses. -/
example : WF (SBM.new (K := Int) [2, 3] [1, 3, 4]) ∧ total [2, 3] = 3 ∧ total [1, 3, 4] = 4 ∧
    ((wrapFrom (SBM.new [2, 3] [1, 3, 4]) (Mat.ofRows 3 4 [[1, 0, 5, 2], [0, -7, 1, 0], [3, 0, 0, -4]]) (1 : Int)).2.toDense).toRows =
      [[0, 0, 5, 2], [0, -7, 0, 0], [3, 0, 0, -4]] :=
  ⟨new_wf (by simp [Mono]) (by simp [Mono]), rfl, rfl, by decide +kernel⟩

end Kalibr.Kinds
