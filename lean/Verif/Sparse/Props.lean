import Verif.Sparse.Lemmas

/-!
# C33: sparse block matrices denote dense matrices
-/

namespace Kalibr.Sparse

set_option linter.unusedSectionVars false

variable {K : Type}

/-- **C33** (dense expansion).  The dense expansion is the one dense matrix that agrees with every
stored block and is zero elsewhere. -/
theorem C33_toDense [Zero K] (A : SBM K) (h : WF A) :
    Denotes A A.toDense ∧ ∀ M, Denotes A M → M.Same A.toDense :=
  ⟨toDense_denotes h, fun _ hM => denotes_unique h hM (toDense_denotes h)⟩

/-- **C33** (element access).  Reading an element gives the element of the dense expansion; indices
outside the matrix are refused. -/
theorem C33_at [Zero K] (A : SBM K) (h : WF A) (r c : Int) :
    (0 ≤ r ∧ r < (A.toDense.rows : Nat) ∧ 0 ≤ c ∧ c < (A.toDense.cols : Nat) →
      A.at r c = .ok (A.toDense.get r.toNat c.toNat)) ∧
    (¬(0 ≤ r ∧ r < (A.toDense.rows : Nat) ∧ 0 ≤ c ∧ c < (A.toDense.cols : Nat)) →
      A.at r c = .raise) := by
  have hr0 : A.toDense.rows = total A.rbi := rfl
  have hc0 : A.toDense.cols = total A.cbi := rfl
  rw [hr0, hc0]
  constructor
  · rintro ⟨h1, h2, h3, h4⟩
    obtain ⟨n, rfl⟩ := Int.eq_ofNat_of_zero_le h1
    obtain ⟨k, rfl⟩ := Int.eq_ofNat_of_zero_le h3
    obtain ⟨br, i, hbr, hi, rfl⟩ := block_exists h.rows (Int.ofNat_lt.1 h2)
    obtain ⟨bc, j, hbc, hj, rfl⟩ := block_exists h.cols (Int.ofNat_lt.1 h4)
    rw [SBM.at, if_neg (not_not.2 ⟨h1, h2⟩), if_neg (not_not.2 ⟨h3, h4⟩)]
    simp only [Int.toNat_natCast]
    rw [findIdx_block h.rows hbr hi, findIdx_block h.cols hbc hj,
      (toDense_denotes h).entry br bc i j hbr hbc hi hj, val]
    cases A.blk br bc <;> simp
  · intro hn
    unfold SBM.at
    split
    · rfl
    · split
      · rfl
      · rename_i h1 h2
        exact absurd ⟨(not_not.1 h1).1, (not_not.1 h1).2, (not_not.1 h2).1, (not_not.1 h2).2⟩ hn

/-- **C33** (writing a block).  Accessing a block with allocation and assigning a block of the right
size to it overwrites just that rectangle of the dense matrix. -/
theorem C33_writeBlock [Zero K] (A : SBM K) (h : WF A) (r c : Nat) (hr : r < A.rbi.length)
    (hc : c < A.cbi.length) (J : Mat K) (hJ : J.rows = size A.rbi r ∧ J.cols = size A.cbi c)
    (M : Mat K) (hM : Denotes A M) :
    WF (A.modBlk r c fun _ => J) ∧
    Denotes (A.modBlk r c fun _ => J)
      { M with get := fun n k =>
          if base A.rbi r ≤ n ∧ n < base A.rbi r + J.rows ∧ base A.cbi c ≤ k ∧
              k < base A.cbi c + J.cols
          then J.get (n - base A.rbi r) (k - base A.cbi c) else M.get n k } := by
  have hw := h.modBlk hr (fun _ => J) (fun _ _ _ => hJ) (c := c)
  refine ⟨hw, hM.rows, hM.cols, ?_⟩
  intro r' c' i j hr' hc' hi hj
  change r' < A.rbi.length at hr'
  change c' < A.cbi.length at hc'
  change i < size A.rbi r' at hi
  change j < size A.cbi c' at hj
  change (if base A.rbi r ≤ base A.rbi r' + i ∧ base A.rbi r' + i < base A.rbi r + J.rows ∧
      base A.cbi c ≤ base A.cbi c' + j ∧ base A.cbi c' + j < base A.cbi c + J.cols then
      J.get (base A.rbi r' + i - base A.rbi r) (base A.cbi c' + j - base A.cbi c)
    else M.get (base A.rbi r' + i) (base A.cbi c' + j)) = _
  rw [val, blk_modBlk h hc, hJ.1, hJ.2]
  by_cases he : r' = r ∧ c' = c
  · obtain ⟨rfl, rfl⟩ := he
    rw [if_pos (by omega), if_pos ⟨rfl, rfl⟩]
    simp
  · rw [if_neg he, if_neg, hM.entry r' c' i j hr' hc' hi hj, val]
    rintro ⟨h1, h2, h3, h4⟩
    exact he ⟨block_unique h.rows hr' hr (by omega) (by omega) h1 h2,
      block_unique h.cols hc' hc (by omega) (by omega) h3 h4⟩

/-- The blocks written by the transposition. -/
theorem transpose_fits {A : SBM K} (h : WF A) : ∀ b ∈ A.blocks,
    b.2.1 < A.cbi.length ∧ b.1 < A.rbi.length ∧ b.2.2.transpose.rows = size A.cbi b.2.1 ∧
      b.2.2.transpose.cols = size A.rbi b.1 := by
  rintro ⟨r, c, J⟩ hb
  have hf := h.blk_fits ((mem_blocks_iff h).1 hb)
  exact ⟨hf.1, hf.2.1, hf.2.2.2, hf.2.2.1⟩

theorem transposeInto_spec [Zero K] {A D : SBM K} (h : WF A) (hD : WF D) (hl : A.rbi = D.cbi)
    (hl' : A.cbi = D.rbi) :
    ∃ T, A.transposeInto D = some T ∧ WF T ∧ T.rbi = D.rbi ∧ T.cbi = D.cbi ∧
      (∀ r c J, A.blk r c = some J → T.blk c r = some J.transpose) ∧
      (∀ r c, A.blk r c = none → T.blk c r = D.blk c r) := by
  have hk : ∀ b ∈ A.blocks, b.2.1 < D.rbi.length ∧ b.1 < D.cbi.length ∧
      b.2.2.transpose.rows = size D.rbi b.2.1 ∧ b.2.2.transpose.cols = size D.cbi b.1 := by
    rw [← hl, ← hl']; exact transpose_fits h
  obtain ⟨w1, w2, w3⟩ := fold_wf A.blocks (fun b => (b.2.1, b.1)) (fun b _ => b.2.2.transpose) D hD
    (fun b hb => ⟨(hk b hb).1, fun _ _ _ => (hk b hb).2.2⟩)
  refine ⟨_, ?_, w1, w2, w3, ?_, ?_⟩
  · rw [SBM.transposeInto, if_neg (by rw [hl, hl']; simp)]
  · intro r c J hb
    refine (fold_set A.blocks (fun b => (b.2.1, b.1)) (fun b => b.2.2.transpose) D hD hk c r).1 _ ?_ ?_
    · rintro ⟨r', c', J'⟩ hb' he
      simp only [Prod.mk.injEq] at he
      obtain ⟨rfl, rfl⟩ := he
      rw [(mem_blocks_iff h).1 hb'] at hb
      injection hb with hb
      rw [hb]
    · exact ⟨(r, c, J), (mem_blocks_iff h).2 hb, rfl⟩
  · intro r c hb
    refine (fold_set A.blocks (fun b => (b.2.1, b.1)) (fun b => b.2.2.transpose) D hD hk c r).2 ?_
    rintro ⟨r', c', J'⟩ hb' he
    simp only [Prod.mk.injEq] at he
    obtain ⟨rfl, rfl⟩ := he
    rw [(mem_blocks_iff h).1 hb'] at hb
    cases hb

/-- **C33** (transpose).  `transpose()` denotes the transposed matrix. -/
theorem C33_transpose [Zero K] (A : SBM K) (h : WF A) :
    ∃ T, A.transpose = some T ∧ WF T ∧ T.rbi = A.cbi ∧ T.cbi = A.rbi ∧
      ∀ M, Denotes A M → Denotes T M.transpose := by
  obtain ⟨T, e, w, l1, l2, s, n⟩ := transposeInto_spec h (new_wf (K := K) h.cols h.rows) rfl rfl
  refine ⟨T, e, w, l1, l2, ?_⟩
  intro M hM
  refine ⟨by rw [l1]; exact hM.cols, by rw [l2]; exact hM.rows, ?_⟩
  rw [l1, l2]
  intro c r j i hc hr hj hi
  rw [Mat.transpose]
  change M.get (base A.rbi r + i) (base A.cbi c + j) = _
  rw [hM.entry r c i j hr hc hi hj, val, val]
  cases hb : A.blk r c with
  | none => rw [n r c hb, new_blk]
  | some J => rw [s r c J hb]; rfl

/-- **C33** (transpose into a given matrix, partial).  The destination becomes the transpose if it has
the right layout and no block at a place where this matrix has none.
Missing: see the counterexample. -/
theorem C33_transposeInto_partial [Zero K] (A D : SBM K) (h : WF A) (hD : WF D)
    (hl : A.rbi = D.cbi) (hl' : A.cbi = D.rbi)
    (hno : ∀ r c, A.blk r c = none → D.blk c r = none) (M : Mat K) (hM : Denotes A M) :
    ∃ T, A.transposeInto D = some T ∧ WF T ∧ Denotes T M.transpose := by
  obtain ⟨T, e, w, l1, l2, s, n⟩ := transposeInto_spec h hD hl hl'
  refine ⟨T, e, w, ?_⟩
  refine ⟨by rw [l1, ← hl']; exact hM.cols, by rw [l2, ← hl]; exact hM.rows, ?_⟩
  rw [l1, l2, ← hl, ← hl']
  intro c r j i hc hr hj hi
  rw [Mat.transpose]
  change M.get (base A.rbi r + i) (base A.cbi c + j) = _
  rw [hM.entry r c i j hr hc hi hj, val, val]
  cases hb : A.blk r c with
  | none => rw [n r c hb, hno r c hb]
  | some J => rw [s r c J hb]; rfl

/-- **C33** is false for transposing into a matrix that already has blocks: what is stored where this
matrix has no block stays. -/
theorem C33_transposeInto_counterexample :
    ∃ A D T : SBM Int, WF A ∧ WF D ∧ A.transposeInto D = some T ∧
      T.toDense.get 0 0 ≠ A.toDense.transpose.get 0 0 := by
  refine ⟨SBM.new [1] [1], (SBM.new [1] [1]).modBlk 0 0 fun _ => Mat.ofRows 1 1 [[7]], _,
    new_wf (by simp [Mono]) (by simp [Mono]), ?_, rfl, by decide +kernel⟩
  exact (new_wf (by simp [Mono]) (by simp [Mono])).modBlk (by decide) _ (fun _ _ _ => ⟨rfl, rfl⟩)

/-- Transposing into a matrix of another layout is refused. -/
theorem C33_transposeInto_refused [Zero K] (A D : SBM K) :
    A.transposeInto D = none ↔ ¬(A.rbi = D.cbi ∧ A.cbi = D.rbi) := by
  unfold SBM.transposeInto
  split
  · rename_i h; simp only [true_iff]; rintro ⟨h1, h2⟩; rcases h with h | h <;> contradiction
  · rename_i h; push Not at h; simp [h]

theorem sum_contrib [AddCommMonoid K] {A : SBM K} (h : WF A) {r c : Nat} (hr : r < A.rbi.length)
    (hc : c < A.cbi.length) (i j : Nat) :
    (A.blocks.map fun b => if b.1 = r ∧ b.2.1 = c then b.2.2.get i j else 0).sum = val A r c i j := by
  rw [sum_over_blocks h fun r' c' J => if r' = r ∧ c' = c then J.get i j else 0]
  rw [Finset.sum_eq_single c]
  · rw [Finset.sum_eq_single r]
    · rw [val]; cases A.blk r c <;> simp
    · intro r' _ hne
      cases A.blk r' c <;> simp [hne]
    · intro hn; exact absurd (Finset.mem_range.2 hr) hn
  · intro c' _ hne
    apply Finset.sum_eq_zero
    intro r' _
    cases A.blk r' c' <;> simp [hne]
  · intro hn; exact absurd (Finset.mem_range.2 hc) hn

/-- **C33** (sum).  `add` adds the dense matrix of this matrix to that of the destination; a destination
of another layout is refused. -/
theorem C33_add [AddCommMonoid K] (A D : SBM K) (h : WF A) (hD : WF D) :
    (A.rbi = D.rbi ∧ A.cbi = D.cbi → ∃ S, A.addInto D = some S ∧ WF S ∧ S.rbi = D.rbi ∧
      S.cbi = D.cbi ∧ ∀ M N, Denotes A M → Denotes D N → Denotes S (N.add M)) ∧
    (¬(A.rbi = D.rbi ∧ A.cbi = D.cbi) → A.addInto D = none) := by
  constructor
  · rintro ⟨hl, hl'⟩
    have hk : ∀ b ∈ A.blocks, b.1 < D.rbi.length ∧ b.2.1 < D.cbi.length := by
      rintro ⟨r, c, J⟩ hb
      have hf := h.blk_fits ((mem_blocks_iff h).1 hb)
      rw [← hl, ← hl']; exact ⟨hf.2.1, hf.1⟩
    obtain ⟨w1, w2, w3⟩ := fold_wf A.blocks (fun b => (b.1, b.2.1)) (fun b d => d.add b.2.2) D hD
      (fun b hb => ⟨(hk b hb).1, fun _ h1 h2 => ⟨h1, h2⟩⟩)
    refine ⟨_, ?_, w1, w2, w3, ?_⟩
    · rw [SBM.addInto, if_neg (by rw [hl, hl']; simp)]
    · intro M N hM hN
      refine ⟨by rw [w2]; exact hN.rows, by rw [w3]; exact hN.cols, ?_⟩
      rw [w2, w3]
      intro r c i j hr hc hi hj
      have := fold_add A.blocks (fun b => (b.1, b.2.1)) (fun b => b.2.2) D hD hk r c i j
      rw [this, sum_contrib h (hl ▸ hr) (hl' ▸ hc), Mat.add]
      dsimp only
      rw [hN.entry r c i j hr hc hi hj, ← hl, ← hl',
        hM.entry r c i j (hl ▸ hr) (hl' ▸ hc) (hl ▸ hi) (hl' ▸ hj)]
  · intro hn
    rw [SBM.addInto, if_pos]
    by_contra hc
    push Not at hc
    exact hn hc

/-- **C33** (matrix-vector product).  `multiply` gives the product of the dense matrix with the
vector; the pointer version adds it to a given destination. -/
theorem C33_mulVec [NonUnitalNonAssocSemiring K] (A : SBM K) (h : WF A) (M : Mat K)
    (hM : Denotes A M) (dest x : Nat → K) (n : Nat) (hn : n < M.rows) :
    A.mulVec x n = ∑ k ∈ Finset.range M.cols, M.get n k * x k ∧
    A.mulVecInto dest x n = dest n + ∑ k ∈ Finset.range M.cols, M.get n k * x k := by
  have key : ∀ dest : Nat → K, A.mulVecInto dest x n =
      dest n + ∑ k ∈ Finset.range M.cols, M.get n k * x k := by
    intro dest
    rw [hM.rows] at hn
    obtain ⟨r, i, hr, hi, rfl⟩ := block_exists h.rows hn
    rw [SBM.mulVecInto, fold_axpy A.blocks (fun b => b.2.2) (fun b => base A.cbi b.2.1)
      (fun b => base A.rbi b.1)]
    rw [sum_over_blocks h fun r' c' J =>
      if base A.rbi r' ≤ base A.rbi r + i ∧ base A.rbi r + i < base A.rbi r' + J.rows then
        ∑ k ∈ Finset.range J.cols, J.get (base A.rbi r + i - base A.rbi r') k *
          x (base A.cbi c' + k) else 0]
    congr 1
    rw [dense_row h hM hr hi]
    apply Finset.sum_congr rfl
    intro c hc
    rw [Finset.sum_eq_single r]
    · cases hb : A.blk r c with
      | none => simp [val, hb]
      | some J =>
        have hf := h.blk_fits hb
        dsimp only
        rw [if_pos (by rw [hf.2.2.1]; omega), hf.2.2.2]
        apply Finset.sum_congr rfl
        intro k _
        simp [val, hb]
    · intro r' hr' hne
      cases hb : A.blk r' c with
      | none => rfl
      | some J =>
        have hf := h.blk_fits hb
        dsimp only
        rw [if_neg]
        rintro ⟨h1, h2⟩
        rw [hf.2.2.1] at h2
        exact hne (block_unique h.rows hf.2.1 hr h1 h2 (by omega) (by omega))
    · intro hnot; exact absurd (Finset.mem_range.2 hr) hnot
  refine ⟨?_, key dest⟩
  rw [SBM.mulVec, key, zero_add]

/-- **C33** (product from the left).  `rightMultiply` gives the product of the transposed dense matrix
with the vector. -/
theorem C33_rightMulVec [NonUnitalNonAssocSemiring K] (A : SBM K) (h : WF A) (M : Mat K)
    (hM : Denotes A M) (x : Nat → K) (n : Nat) (hn : n < M.cols) :
    A.rightMulVec x n = ∑ k ∈ Finset.range M.rows, M.get k n * x k := by
  rw [hM.cols] at hn
  obtain ⟨c, j, hc, hj, rfl⟩ := block_exists h.cols hn
  rw [SBM.rightMulVec, fold_axpy A.blocks (fun b => b.2.2.transpose) (fun b => base A.rbi b.1)
    (fun b => base A.cbi b.2.1)]
  rw [sum_over_blocks h fun r' c' J =>
    if base A.cbi c' ≤ base A.cbi c + j ∧ base A.cbi c + j < base A.cbi c' + J.transpose.rows then
      ∑ k ∈ Finset.range J.transpose.cols, J.transpose.get (base A.cbi c + j - base A.cbi c') k *
        x (base A.rbi r' + k) else 0]
  rw [zero_add, dense_col h hM hc hj, Finset.sum_comm]
  apply Finset.sum_congr rfl
  intro r hr
  rw [Finset.sum_eq_single c]
  · cases hb : A.blk r c with
    | none => simp [val, hb]
    | some J =>
      have hf := h.blk_fits hb
      have e1 : J.transpose.rows = size A.cbi c := hf.2.2.2
      have e2 : J.transpose.cols = size A.rbi r := hf.2.2.1
      dsimp only
      rw [if_pos (by rw [e1]; omega), e2]
      apply Finset.sum_congr rfl
      intro k _
      simp [val, hb, Mat.transpose]
  · intro c' hc' hne
    cases hb : A.blk r c' with
    | none => rfl
    | some J =>
      have hf := h.blk_fits hb
      have e1 : J.transpose.rows = size A.cbi c' := hf.2.2.2
      dsimp only
      rw [if_neg]
      rintro ⟨h1, h2⟩
      rw [e1] at h2
      exact hne (block_unique h.cols hf.1 hc h1 h2 (by omega) (by omega))
  · intro hnot; exact absurd (Finset.mem_range.2 hc) hnot

/-- The double loop of the product as one loop. -/
def products [NonUnitalNonAssocSemiring K] (A M : SBM K) : List (Nat × Nat × Mat K) :=
  M.blocks.flatMap fun b => (A.bcols.getD b.1 []).map fun a => (a.1, b.2.1, a.2.mul b.2.2)

theorem mulLoop_eq [NonUnitalNonAssocSemiring K] (A M D : SBM K) :
    A.mulLoop M D =
      (products A M).foldl (fun D b => D.modBlk b.1 b.2.1 fun d => d.add b.2.2) D := by
  rw [SBM.mulLoop, products, List.foldl_flatMap]
  simp only [List.foldl_map]

theorem mulLoop_spec [NonUnitalNonAssocSemiring K] {A M D : SBM K} (hA : WF A) (hM : WF M) (hD : WF D)
    (h1 : A.cbi = M.rbi) (h2 : D.rbi = A.rbi) (h3 : D.cbi = M.cbi) :
    WF (A.mulLoop M D) ∧ (A.mulLoop M D).rbi = D.rbi ∧ (A.mulLoop M D).cbi = D.cbi ∧
    ∀ X Y Z, Denotes A X → Denotes M Y → Denotes D Z →
      Denotes (A.mulLoop M D) (Z.add (X.mul Y)) := by
  have hk : ∀ b ∈ products A M, b.1 < D.rbi.length ∧ b.2.1 < D.cbi.length := by
    intro b hb
    simp only [products, List.mem_flatMap, List.mem_map] at hb
    obtain ⟨⟨r, c, J⟩, hb, p, hp, rfl⟩ := hb
    have hf := hM.blk_fits ((mem_blocks_iff hM).1 hb)
    have hg := hA.fitsD _ p hp
    rw [h2, h3]
    exact ⟨hg.2.1, hf.1⟩
  obtain ⟨w1, w2, w3⟩ := fold_wf (products A M) (fun b => (b.1, b.2.1)) (fun b d => d.add b.2.2) D hD
    (fun b hb => ⟨(hk b hb).1, fun _ e1 e2 => ⟨e1, e2⟩⟩)
  rw [mulLoop_eq]
  refine ⟨w1, w2, w3, ?_⟩
  intro X Y Z hX hY hZ
  refine ⟨by rw [w2]; exact hZ.rows, by rw [w3]; exact hZ.cols, ?_⟩
  rw [w2, w3]
  intro r c i j hr hc hi hj
  have := fold_add (products A M) (fun b => (b.1, b.2.1)) (fun b => b.2.2) D hD hk r c i j
  rw [this, Mat.add]
  dsimp only
  rw [hZ.entry r c i j hr hc hi hj]
  congr 1
  rw [Mat.mul]
  dsimp only
  rw [h2] at hr hi ⊢
  rw [h3] at hc hj ⊢
  rw [dense_row hA hX hr hi]
  -- the contributions, grouped by the blocks of the second factor
  have e1 : ((products A M).map fun b => if b.1 = r ∧ b.2.1 = c then b.2.2.get i j else 0).sum =
      (M.blocks.map fun b => if b.2.1 = c then
        (match A.blk r b.1 with | none => 0 | some a => (a.mul b.2.2).get i j) else 0).sum := by
    rw [products]
    have inner : ∀ b : Nat × Nat × Mat K,
        (((A.bcols.getD b.1 []).map fun a => (a.1, b.2.1, a.2.mul b.2.2)).map fun b =>
          if b.1 = r ∧ b.2.1 = c then b.2.2.get i j else 0).sum =
        if b.2.1 = c then
          (match A.blk r b.1 with | none => 0 | some a => (a.mul b.2.2).get i j) else 0 := by
      intro b
      rw [List.map_map]
      have := sum_map_find (hA.sortedD b.1) A.rbi.length (fun p hp => (hA.fitsD b.1 p hp).2.1)
        (fun k a => if k = r ∧ b.2.1 = c then (a.mul b.2.2).get i j else 0)
      refine Eq.trans this ?_
      rw [Finset.sum_eq_single r]
      · by_cases hc : b.2.1 = c
        · simp only [hc, and_self, if_true]; rfl
        · simp only [hc, and_false, if_false]
          cases mapFind (A.bcols.getD b.1 []) r <;> rfl
      · intro k _ hne
        cases mapFind (A.bcols.getD b.1 []) k <;> simp [hne]
      · intro hn; exact absurd (Finset.mem_range.2 hr) hn
    generalize M.blocks = l
    induction l with
    | nil => rfl
    | cons b l ih =>
      rw [List.flatMap_cons, List.map_append, List.sum_append, ih, inner b, List.map_cons,
        List.sum_cons]
  have e3 := sum_over_blocks hM (fun (k c' : Nat) (J : Mat K) => (if c' = c then
        (match A.blk r k with | none => 0 | some a => (a.mul J).get i j) else 0 : K))
  rw [e1]
  refine Eq.trans ?_ e3.symm
  symm
  rw [Finset.sum_eq_single c]
  · rw [h1]
    apply Finset.sum_congr rfl
    intro k hk'
    have hkr := Finset.mem_range.1 hk'
    have e2 : ∀ q ∈ Finset.range (size M.rbi k),
        val A r k i q * Y.get (base M.rbi k + q) (base M.cbi c + j) =
          val A r k i q * val M k c q j := by
      intro q hq
      rw [hY.entry k c q j hkr hc (Finset.mem_range.1 hq) hj]
    rw [Finset.sum_congr rfl e2]
    cases hb : M.blk k c with
    | none => simp [val, hb]
    | some J =>
      dsimp only
      rw [if_pos rfl]
      cases ha : A.blk r k with
      | none => simp [val, ha]
      | some a =>
        have hf := hA.blk_fits ha
        simp only [Mat.mul, val, ha, hb]
        rw [hf.2.2.2, h1]
  · intro c' _ hne
    apply Finset.sum_eq_zero
    intro k _
    cases M.blk k c' <;> simp [hne]
  · intro hn; exact absurd (Finset.mem_range.2 hc) hn

/-- **C33** (product).  `operator*` denotes the product of the dense matrices; matrices whose layouts
do not match are refused. -/
theorem C33_mul [NonUnitalNonAssocSemiring K] (A M : SBM K) (hA : WF A) (hM : WF M) :
    (A.cbi = M.rbi → ∃ C, A.mul M = .ok C ∧ WF C ∧ C.rbi = A.rbi ∧ C.cbi = M.cbi ∧
      ∀ X Y, Denotes A X → Denotes M Y → Denotes C (X.mul Y)) ∧
    (A.cbi ≠ M.rbi → A.mul M = .raise) := by
  constructor
  · intro hl
    have hn := new_wf (K := K) hA.rows hM.cols
    obtain ⟨w, r, c, d⟩ := mulLoop_spec hA hM hn hl rfl rfl
    refine ⟨A.mulLoop M (SBM.new A.rbi M.cbi), ?_, w, r, c, ?_⟩
    · simp [SBM.mul, SBM.multiplyInto, hl, SBM.new]
    · intro X Y hX hY
      have hz : Denotes (SBM.new (K := K) A.rbi M.cbi) (Mat.zero X.rows Y.cols) := by
        refine ⟨hX.rows, hY.cols, ?_⟩
        intro r c i j _ _ _ _
        simp [val, new_blk, Mat.zero]
      have := d X Y _ hX hY hz
      refine ⟨this.rows, this.cols, ?_⟩
      intro r c i j h1 h2 h3 h4
      rw [← this.entry r c i j h1 h2 h3 h4]
      simp [Mat.add, Mat.zero]
  · intro hl
    simp [SBM.mul, SBM.multiplyInto, hl]

/-- **C33** (product into a given matrix).  With a destination of the right layout the product is added
to what the destination holds. -/
theorem C33_multiplyInto [NonUnitalNonAssocSemiring K] (A M D : SBM K) (hA : WF A) (hM : WF M)
    (hD : WF D) (h1 : A.cbi = M.rbi) (h2 : D.rbi = A.rbi) (h3 : D.cbi = M.cbi) (X Y Z : Mat K)
    (hX : Denotes A X) (hY : Denotes M Y) (hZ : Denotes D Z) :
    ∃ C, A.multiplyInto M D = .ok (some C) ∧ WF C ∧ Denotes C (Z.add (X.mul Y)) := by
  obtain ⟨w, _, _, d⟩ := mulLoop_spec hA hM hD h1 h2 h3
  refine ⟨A.mulLoop M D, ?_, w, d X Y Z hX hY hZ⟩
  simp [SBM.multiplyInto, h1, h2, h3]

/-- **C33** is false of `multiply` into a matrix that is not zero, which the documentation describes as
`dest = (*this) * M`: the old contents are added. -/
theorem C33_multiplyInto_counterexample :
    ∃ A M D C : SBM Int, WF A ∧ WF M ∧ WF D ∧ A.multiplyInto M D = .ok (some C) ∧
      C.toDense.get 0 0 ≠ (A.toDense.mul M.toDense).get 0 0 := by
  have hw : ∀ J : Mat Int, J.rows = 1 → J.cols = 1 →
      WF ((SBM.new (K := Int) [1] [1]).modBlk 0 0 fun _ => J) := fun J h1 h2 =>
    (new_wf (by simp [Mono]) (by simp [Mono])).modBlk (by decide) _ (fun _ _ _ => ⟨h1, h2⟩)
  exact ⟨(SBM.new [1] [1]).modBlk 0 0 fun _ => Mat.ofRows 1 1 [[2]],
    (SBM.new [1] [1]).modBlk 0 0 fun _ => Mat.ofRows 1 1 [[3]],
    (SBM.new [1] [1]).modBlk 0 0 fun _ => Mat.ofRows 1 1 [[1]], _,
    hw _ rfl rfl, hw _ rfl rfl, hw _ rfl rfl, rfl, by decide +kernel⟩

theorem scale_blk [Mul K] (a : K) (A : SBM K) (r c : Nat) :
    (A.scale a).blk r c = (A.blk r c).map fun J => J.scale a := by
  have : (A.scale a).bcols.getD c [] = (A.bcols.getD c []).map fun p => (p.1, p.2.scale a) := by
    simp only [SBM.scale, List.getD_eq_getElem?_getD, List.getElem?_map]
    cases A.bcols[c]? <;> rfl
  rw [SBM.blk, this, SBM.blk]
  simp only [mapFind, List.find?_map, Option.map_map]
  rfl

/-- **C33** (scaling). -/
theorem C33_scale [NonUnitalNonAssocSemiring K] (a : K) (A : SBM K) (h : WF A) (M : Mat K)
    (hM : Denotes A M) : WF (A.scale a) ∧ Denotes (A.scale a) (M.scale a) := by
  have hb : ∀ (c : Nat) (m : List (Nat × Mat K)), (A.scale a).bcols[c]? = some m →
      ∃ m0, A.bcols[c]? = some m0 ∧ m = m0.map fun p => (p.1, p.2.scale a) := by
    intro c m hm
    simp only [SBM.scale, List.getElem?_map, Option.map_eq_some_iff] at hm
    obtain ⟨m0, h0, e⟩ := hm
    exact ⟨m0, h0, e.symm⟩
  refine ⟨⟨h.rows, h.cols, by simpa [SBM.scale] using h.length, ?_, ?_⟩, hM.rows, hM.cols, ?_⟩
  · intro c m hm
    obtain ⟨m0, h0, rfl⟩ := hb c m hm
    rw [List.pairwise_map]
    exact h.sorted c m0 h0
  · intro c m hm p hp
    obtain ⟨m0, h0, rfl⟩ := hb c m hm
    simp only [List.mem_map] at hp
    obtain ⟨q, hq, rfl⟩ := hp
    exact h.fits c m0 h0 q hq
  · intro r c i j hr hc hi hj
    rw [val, scale_blk]
    change M.get (base A.rbi r + i) (base A.cbi c + j) * a = _
    rw [hM.entry r c i j hr hc hi hj, val]
    cases A.blk r c <;> simp [Mat.scale]

/-! ## Slices -/

theorem cumul_length (bi : List Nat) (lo n : Nat) : (cumul bi lo n).length = n := by
  induction n with
  | zero => rfl
  | succ n ih => simp [cumul, ih]

theorem cumul_base {bi : List Nat} (h : Mono bi) {lo n : Nat} (hn : lo + n ≤ bi.length) {k : Nat}
    (hk : k ≤ n) : base (cumul bi lo n) k + base bi lo = base bi (lo + k) := by
  induction n generalizing k with
  | zero => have : k = 0 := by omega
            subst this; simp [base]
  | succ n ih =>
    by_cases hkn : k ≤ n
    · rw [← ih (by omega) hkn]
      congr 1
      unfold base
      by_cases h0 : k = 0
      · rw [if_pos h0, if_pos h0]
      · rw [if_neg h0, if_neg h0, cumul, List.getD_eq_getElem?_getD, List.getD_eq_getElem?_getD,
          List.getElem?_append_left (by rw [cumul_length]; omega)]
    · have hk' : k = n + 1 := by omega
      subst hk'
      have h1 := ih (by omega) le_rfl
      have h2 : (cumul bi lo n).getLast?.getD 0 = base (cumul bi lo n) n := by
        have := total_eq (cumul bi lo n)
        rw [cumul_length] at this
        exact this
      rw [← Nat.add_assoc, base_succ h (by omega), ← h1]
      conv_lhs => rw [base, if_neg (by omega), cumul, List.getD_eq_getElem?_getD,
        List.getElem?_append_right (by rw [cumul_length]; omega)]
      simp only [Nat.add_sub_cancel, cumul_length, Nat.sub_self, List.getElem?_cons_zero,
        Option.getD_some, h2]
      omega

theorem cumul_mono {bi : List Nat} (h : Mono bi) {lo n : Nat} (hn : lo + n ≤ bi.length) :
    Mono (cumul bi lo n) := by
  rw [Mono, List.pairwise_iff_getElem]
  intro a b ha hb hab
  rw [cumul_length] at ha hb
  have e : ∀ k (hk : k < (cumul bi lo n).length),
      (cumul bi lo n)[k] + base bi lo = base bi (lo + (k + 1)) := by
    intro k hk
    have : (cumul bi lo n)[k] = (cumul bi lo n).getD k 0 := by
      simp [List.getD_eq_getElem?_getD, hk]
    rw [this, getD_eq_base, cumul_base h hn (by rw [cumul_length] at hk; omega)]
  have e1 := e a (by rw [cumul_length]; omega)
  have e2 := e b (by rw [cumul_length]; omega)
  have := base_mono h (show lo + (a + 1) ≤ lo + (b + 1) by omega) (by omega)
  omega

theorem cumul_size {bi : List Nat} (h : Mono bi) {lo n : Nat} (hn : lo + n ≤ bi.length) {k : Nat}
    (hk : k < n) : size (cumul bi lo n) k = size bi (lo + k) := by
  have h1 := base_succ (cumul_mono h hn) (k := k) (by rw [cumul_length]; exact hk)
  have h2 := base_succ h (k := lo + k) (by omega)
  have h3 := cumul_base h hn (k := k + 1) (by omega)
  have h4 := cumul_base h hn (k := k) (by omega)
  rw [show lo + (k + 1) = lo + k + 1 by omega] at h3
  omega

theorem mapFind_slice (m : List (Nat × Mat K)) (lo hi k : Nat) (hk : lo + k < hi) :
    mapFind ((m.filter fun p => lo ≤ p.1 ∧ p.1 < hi).map fun p => (p.1 - lo, p.2)) k =
      mapFind m (lo + k) := by
  induction m with
  | nil => rfl
  | cons p m ih =>
    rw [mapFind_cons, List.filter_cons]
    by_cases hp : lo ≤ p.1 ∧ p.1 < hi
    · rw [if_pos (by simpa using hp), List.map_cons, mapFind_cons, ih]
      by_cases he : p.1 = lo + k
      · rw [if_pos he, if_pos (by simp; omega)]
      · rw [if_neg he, if_neg (by simp; omega)]
    · rw [if_neg (by simpa using hp), ih, if_neg (by omega)]

/-- **C33** (slice).  The slice of a non-empty range of block rows and block columns denotes the
corresponding submatrix. -/
theorem C33_slice [Zero K] (A : SBM K) (h : WF A) (rmin rmax cmin cmax : Nat) (hr : rmin < rmax)
    (hc : cmin < cmax) (hr' : rmax ≤ A.rbi.length) (hc' : cmax ≤ A.cbi.length) (M : Mat K)
    (hM : Denotes A M) :
    ∃ S, A.slice rmin rmax cmin cmax = .ok S ∧ WF S ∧
      Denotes S ⟨base A.rbi rmax - base A.rbi rmin, base A.cbi cmax - base A.cbi cmin,
        fun i j => M.get (base A.rbi rmin + i) (base A.cbi cmin + j)⟩ := by
  have nr : rmin + (rmax - rmin) ≤ A.rbi.length := by omega
  have nc : cmin + (cmax - cmin) ≤ A.cbi.length := by omega
  refine ⟨_, by rw [SBM.slice, if_neg (not_not.2 ⟨hr, hc, hr', hc'⟩)], ?_, ?_⟩
  · have hb : ∀ (c : Nat) (m : List (Nat × Mat K)),
        ((List.range (cmax - cmin)).map fun i =>
          ((A.bcols.getD (cmin + i) []).filter fun p => rmin ≤ p.1 ∧ p.1 < rmax).map fun p =>
            (p.1 - rmin, p.2))[c]? = some m → c < cmax - cmin ∧
        m = ((A.bcols.getD (cmin + c) []).filter fun p => rmin ≤ p.1 ∧ p.1 < rmax).map fun p =>
            (p.1 - rmin, p.2) := by
      intro c m hm
      simp only [List.getElem?_map, Option.map_eq_some_iff] at hm
      obtain ⟨i, hi, e⟩ := hm
      rw [List.getElem?_eq_some_iff] at hi
      obtain ⟨hlt, hi⟩ := hi
      simp only [List.getElem_range] at hi
      subst hi
      simp only [List.length_range] at hlt
      exact ⟨hlt, e.symm⟩
    refine ⟨cumul_mono h.rows nr, cumul_mono h.cols nc, by simp [cumul_length], ?_, ?_⟩
    · intro c m hm
      obtain ⟨_, rfl⟩ := hb c m hm
      rw [List.pairwise_map]
      have hs := (h.sortedD (cmin + c)).filter (fun p => decide (rmin ≤ p.1 ∧ p.1 < rmax))
      refine List.Pairwise.imp_of_mem ?_ hs
      intro p q hp hq hlt
      simp only [List.mem_filter, decide_eq_true_eq] at hp hq
      show p.1 - rmin < q.1 - rmin
      omega
    · intro c m hm p hp
      obtain ⟨hlt, rfl⟩ := hb c m hm
      simp only [List.mem_map, List.mem_filter, decide_eq_true_eq] at hp
      obtain ⟨q, ⟨hq, h1, h2⟩, rfl⟩ := hp
      have hf := h.fitsD _ q hq
      refine ⟨by simp only [cumul_length]; omega, ?_, ?_⟩
      · dsimp only
        rw [cumul_size h.rows nr (by omega), show rmin + (q.1 - rmin) = q.1 by omega]
        exact hf.2.2.1
      · dsimp only
        rw [cumul_size h.cols nc hlt]
        exact hf.2.2.2
  · refine ⟨?_, ?_, ?_⟩
    · have := cumul_base h.rows nr (k := rmax - rmin) le_rfl
      have t := total_eq (cumul A.rbi rmin (rmax - rmin))
      rw [cumul_length] at t
      dsimp only
      rw [t]
      rw [show rmin + (rmax - rmin) = rmax by omega] at this
      omega
    · have := cumul_base h.cols nc (k := cmax - cmin) le_rfl
      have t := total_eq (cumul A.cbi cmin (cmax - cmin))
      rw [cumul_length] at t
      dsimp only
      rw [t]
      rw [show cmin + (cmax - cmin) = cmax by omega] at this
      omega
    · intro r c i j h1 h2 h3 h4
      dsimp only at h1 h2 h3 h4 ⊢
      rw [cumul_length] at h1 h2
      rw [cumul_size h.rows nr h1] at h3
      rw [cumul_size h.cols nc h2] at h4
      have b1 := cumul_base h.rows nr (k := r) (by omega)
      have b2 := cumul_base h.cols nc (k := c) (by omega)
      rw [show base A.rbi rmin + (base (cumul A.rbi rmin (rmax - rmin)) r + i) =
          base A.rbi (rmin + r) + i by omega,
        show base A.cbi cmin + (base (cumul A.cbi cmin (cmax - cmin)) c + j) =
          base A.cbi (cmin + c) + j by omega,
        hM.entry (rmin + r) (cmin + c) i j (by omega) (by omega) h3 h4, val, val]
      have : (SBM.mk (cumul A.rbi rmin (rmax - rmin)) (cumul A.cbi cmin (cmax - cmin))
          ((List.range (cmax - cmin)).map fun i =>
          ((A.bcols.getD (cmin + i) []).filter fun p => rmin ≤ p.1 ∧ p.1 < rmax).map fun p =>
            (p.1 - rmin, p.2))).blk r c = A.blk (rmin + r) (cmin + c) := by
        simp only [SBM.blk]
        rw [← mapFind_slice (A.bcols.getD (cmin + c) []) rmin rmax r (by omega)]
        congr 1
        simp [List.getD_eq_getElem?_getD, h2]
      rw [this]

/-! ## Concrete cases -/

/-- Rows split 2+1, columns split 1+2, with two blocks. -/
def exA : SBM Int := ((SBM.new [2, 3] [1, 3]).modBlk 0 1 fun _ => Mat.ofRows 2 2 [[1, 2], [3, 4]]).modBlk
  1 0 fun _ => Mat.ofRows 1 1 [[5]]

example : WF exA :=
  ((new_wf (by simp [Mono]) (by simp [Mono])).modBlk (by decide) _ (fun _ _ _ => ⟨rfl, rfl⟩)).modBlk
    (by decide) _ (fun _ _ _ => ⟨rfl, rfl⟩)

example : exA.toDense.toRows = [[0, 1, 2], [0, 3, 4], [5, 0, 0]] := by decide +kernel

example : (exA.transpose.map fun T => T.toDense.toRows) = some [[0, 0, 5], [1, 3, 0], [2, 4, 0]] := by
  decide +kernel

example : (exA.transpose.map fun T => (exA.mul T).okAnd fun P => P.toDense.toRows =
    [[5, 11, 0], [11, 25, 0], [0, 0, 25]]) = some true := by decide +kernel

end Kalibr.Sparse
