import Verif.Jacobian.Lemmas

/-!
# C26: adding Jacobian containers adds the linear maps
-/

namespace Kalibr.Jacobian

set_option linter.unusedSectionVars false

variable {D K : Type}

/-- **C26** (order, no duplicates).  Every container obtained through the API keeps its blocks in
increasing order of block index, one block for each variable, and every block has the rows of the
container and the columns of its variable. -/
theorem C26_ordered [NonUnitalNonAssocSemiring K] (env : Env D K) (c : Container D K)
    (h : Reachable env c) : Ordered env c ∧ Fits env c ∧ (c.map.map (·.1)).Nodup := by
  obtain ⟨h1, h2⟩ := reachable_inv env h
  refine ⟨h1, h2, ?_⟩
  rw [List.Nodup, List.pairwise_map]
  exact h1.imp fun hlt he => by rw [he] at hlt; exact lt_irrefl _ hlt

/-- **C26** (sum).  Adding container `b` to container `a` of as many rows succeeds, and the result
holds for each variable the sum of the two blocks, or the only one there is, or none; as a linear map
it is the sum of the two. -/
theorem C26_add [NonUnitalNonAssocSemiring K] (env : Env D K) (hd : Distinct env)
    (a b : Container D K) (ha : Reachable env a) (hb : Reachable env b) (hr : a.rows = b.rows) :
    ∃ c, addContainer env a b = .ok c ∧ c.rows = a.rows ∧
      (∀ d J J', find env a.map d = some J → find env b.map d = some J' →
        find env c.map d = some (J.add J')) ∧
      (∀ d, find env b.map d = none → find env c.map d = find env a.map d) ∧
      (∀ d, find env a.map d = none → find env c.map d = find env b.map d) ∧
      (∀ p ∈ c.map, p.1 ∈ a.map.map (·.1) ∨ p.1 ∈ b.map.map (·.1)) ∧
      ∀ x i, eval c x i = eval a x i + eval b x i := by
  obtain ⟨ha1, ha2⟩ := reachable_inv env ha
  obtain ⟨hb1, hb2⟩ := reachable_inv env hb
  refine ⟨_, addContainer_eq env a b ha1 hb1 hr, rfl, ?_, ?_, ?_, ?_, ?_⟩
  · intro d J J' h1 h2
    rw [find_merge env _ _ ha1 hb1, h1, h2]; rfl
  · intro d h
    rw [find_merge env _ _ ha1 hb1, h]
    cases find env a.map d <;> rfl
  · intro d h
    rw [find_merge env _ _ ha1 hb1, h]; rfl
  · intro p hp
    rcases mem_merge_key env _ _ p hp with ⟨q, hq, e⟩ | ⟨q, hq, e⟩
    · exact Or.inl (List.mem_map.2 ⟨q, hq, e⟩)
    · exact Or.inr (List.mem_map.2 ⟨q, hq, e⟩)
  · exact fun x i => eval_merge env a.rows _ _ hd ha2 (by rw [hr]; exact hb2) x i

/-- **C26** (sum).  Containers of different heights are refused. -/
theorem C26_add_refused [Add K] (env : Env D K) (a b : Container D K) (hr : a.rows ≠ b.rows) :
    addContainer env a b = .raise := by
  simp [addContainer, hr]

/-- **C26** (one block).  Adding a block of the right size for an active variable adds its linear map;
for an inactive variable nothing changes; a block of the wrong size is refused. -/
theorem C26_addBlock [NonUnitalNonAssocSemiring K] (env : Env D K) (hd : Distinct env)
    (a : Container D K) (ha : Reachable env a) (d : D) (J : Mat K) :
    (J.rows = a.rows ∧ J.cols = env.dim d → env.active d = true →
      ∃ c, addBlock env a d J = .ok c ∧ c.rows = a.rows ∧
        (∀ J', find env a.map d = some J' → find env c.map d = some (J'.add J)) ∧
        (find env a.map d = none → find env c.map d = some J) ∧
        (∀ d', env.blockIndex d' ≠ env.blockIndex d → find env c.map d' = find env a.map d') ∧
        ∀ x i, eval c x i = eval a x i + ∑ k ∈ Finset.range J.cols, J.get i k * x d k) ∧
    (J.rows = a.rows ∧ J.cols = env.dim d → env.active d = false → addBlock env a d J = .ok a) ∧
    (¬(J.rows = a.rows ∧ J.cols = env.dim d) → addBlock env a d J = .raise) := by
  obtain ⟨ha1, ha2⟩ := reachable_inv env ha
  refine ⟨?_, ?_, ?_⟩
  · rintro ⟨h1, h2⟩ h3
    have hs : Srt env [(d, J)] := List.pairwise_singleton _ _
    refine ⟨_, addBlock_eq env a d J ha1 h1 h2 h3, rfl, ?_, ?_, ?_, ?_⟩
    · intro J' h
      rw [find_merge env _ _ ha1 hs, h, find_cons, if_pos rfl]; rfl
    · intro h
      rw [find_merge env _ _ ha1 hs, h, find_cons, if_pos rfl]; rfl
    · intro d' h
      rw [find_merge env _ _ ha1 hs, find_cons, if_neg (fun e => h e.symm), find_nil]
      cases find env a.map d' <;> rfl
    · intro x i
      have := eval_merge env a.rows _ _ hd ha2 (fits_single env _ d J h1 h2 h3) x i
      rw [evalL_cons] at this
      simpa [evalL, eval] using this
  · rintro ⟨h1, h2⟩ h3
    simp [addBlock, h1, h2, h3]
  · intro h
    unfold addBlock
    split
    · rfl
    · split
      · rfl
      · rename_i h1 h2
        exact absurd ⟨not_not.1 h1, not_not.1 h2⟩ h

/-- **C26** (product).  Applying the chain rule with a matrix that has as many columns as the container
has rows multiplies every block, and the linear map, from the left; other matrices are refused. -/
theorem C26_chain [NonUnitalSemiring K] (env : Env D K) (M : Mat K) (a : Container D K) :
    (M.cols = a.rows → ∃ c, applyChainRule M a = .ok c ∧ c.rows = M.rows ∧
      (∀ d, find env c.map d = (find env a.map d).map M.mul) ∧
      ∀ x i, eval c x i = ∑ r ∈ Finset.range a.rows, M.get i r * eval a x r) ∧
    (M.cols ≠ a.rows → applyChainRule M a = .raise) := by
  constructor
  · intro h
    refine ⟨⟨M.rows, a.map.map fun p => (p.1, M.mul p.2)⟩, ?_, rfl, ?_, ?_⟩
    · simp [applyChainRule, h]
    · intro d
      simp only [find, List.find?_map, Option.map_map]
      rfl
    · intro x i
      show evalL _ x i = ∑ r ∈ Finset.range a.rows, M.get i r * evalL a.map x r
      generalize a.map = m
      induction m with
      | nil => simp [evalL]
      | cons p ps ih =>
        rw [List.map_cons, evalL_cons, ih]
        simp only [evalL_cons, mul_add, Finset.sum_add_distrib]
        congr 1
        simp only [Mat.mul, Finset.sum_mul, Finset.mul_sum, h]
        rw [Finset.sum_comm]
        exact Finset.sum_congr rfl fun r _ => Finset.sum_congr rfl fun k _ => mul_assoc _ _ _
  · intro h
    simp [applyChainRule, h]

/-- Asking for the block of a variable gives the stored one, and is refused if there is none. -/
theorem C26_lookup (env : Env D K) (a : Container D K) (d : D) :
    (∀ J, jacobian env a d = .ok J ↔ find env a.map d = some J) ∧
    (jacobian env a d = .raise ↔ ∀ p ∈ a.map, env.blockIndex p.1 ≠ env.blockIndex d) := by
  unfold jacobian
  constructor
  · intro J
    cases find env a.map d <;> simp
  · have : find env a.map d = none ↔ ∀ q ∈ a.map, env.blockIndex q.1 ≠ env.blockIndex d := by
      simp [find]
    rw [← this]
    cases find env a.map d <;> simp

theorem stacked_length (env : Env D K) (a : Container D K) (x : D → Nat → K) :
    (stacked env a x).length = cols env a := by
  simp [stacked, cols, List.length_flatMap]

/-- **C26** (dense form).  The dense matrix is the same linear map: times the increments of the
variables one below the other it gives the value of the container. -/
theorem C26_dense [NonUnitalNonAssocSemiring K] (env : Env D K)
    (a : Container D K) (ha : Reachable env a) (x : D → Nat → K) :
    (asDenseMatrix env a).rows = a.rows ∧
    (asDenseMatrix env a).cols = (stacked env a x).length ∧
    ∀ i, ∑ j ∈ Finset.range (asDenseMatrix env a).cols,
      (asDenseMatrix env a).get i j * (stacked env a x).getD j 0 = eval a x i := by
  obtain ⟨_, ha2⟩ := reachable_inv env ha
  refine ⟨rfl, (stacked_length env a x).symm, ?_⟩
  intro i
  have key : ∀ m : List (D × Mat K), (∀ p ∈ m, p.2.cols = env.dim p.1) →
      ∑ j ∈ Finset.range ((m.map fun p => env.dim p.1).sum),
        asDenseMatrix.go env i m j *
          (m.flatMap fun p => (List.range (env.dim p.1)).map (x p.1)).getD j 0 = evalL m x i := by
    intro m hm
    induction m with
    | nil => simp [evalL]
    | cons p ps ih =>
      rw [evalL_cons, List.map_cons, List.sum_cons, Finset.sum_range_add, hm p (by simp)]
      congr 1
      · apply Finset.sum_congr rfl
        intro k hk
        have hk := Finset.mem_range.1 hk
        rw [asDenseMatrix.go, if_pos hk, List.flatMap_cons, List.getD_eq_getElem?_getD,
          List.getElem?_append_left (by simpa)]
        simp [hk]
      · rw [← ih fun q hq => hm q (by simp [hq])]
        apply Finset.sum_congr rfl
        intro k hk
        rw [asDenseMatrix.go, if_neg (by omega), List.flatMap_cons, List.getD_eq_getElem?_getD,
          List.getElem?_append_right (by simp)]
        simp
  exact key a.map fun p hp => (ha2 p hp).2.1

/-! ## Concrete cases -/

/-- Three variables of dimensions 1, 2 and 1 with block indices 2, 0 and 1. -/
def exEnv : Env Nat Int where
  blockIndex := fun d => if d = 0 then 2 else if d = 1 then 0 else (d : Int) - 1
  dim := fun d => if d = 1 then 2 else 1
  active := fun d => decide (d < 3)
  scaling := fun _ => 1

example : Distinct exEnv := by
  intro d d' h h' he
  simp only [exEnv, decide_eq_true_eq] at h h' he
  split at he <;> split at he <;> (try split at he) <;> (try split at he) <;> omega

def exA : Container Nat Int :=
  ⟨1, [(1, Mat.ofRows 1 2 [[1, 2]]), (0, Mat.ofRows 1 1 [[3]])]⟩
def exB : Container Nat Int :=
  ⟨1, [(1, Mat.ofRows 1 2 [[10, 20]]), (2, Mat.ofRows 1 1 [[5]]), (0, Mat.ofRows 1 1 [[7]])]⟩

example : Reachable exEnv exA :=
  .addBlock 1 (Mat.ofRows 1 2 [[1, 2]])
    (.addBlock 0 (Mat.ofRows 1 1 [[3]]) (.new 1) rfl) rfl

example : Reachable exEnv exB :=
  .addBlock 2 (Mat.ofRows 1 1 [[5]]) (.addBlock 1 (Mat.ofRows 1 2 [[10, 20]])
    (.addBlock 0 (Mat.ofRows 1 1 [[7]]) (.new 1) rfl) rfl) rfl

example : (addContainer exEnv exA exB).okAnd (fun c =>
    c.map.map (fun p => (p.1, p.2.toRows)) = [(1, [[11, 22]]), (2, [[5]]), (0, [[10]])]) = true := by
  decide +kernel

example : (asDenseMatrix exEnv exB).toRows = [[10, 20, 5, 7]] := by decide +kernel

end Kalibr.Jacobian
