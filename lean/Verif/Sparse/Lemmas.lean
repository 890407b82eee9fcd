import Verif.Sparse.Spec

namespace Kalibr.Sparse

set_option linter.unusedSectionVars false

variable {K : Type}

/-! ## Layouts -/

theorem getD_mono {bi : List Nat} (h : Mono bi) {a b : Nat} (hab : a ≤ b) (hb : b < bi.length) :
    bi.getD a 0 ≤ bi.getD b 0 := by
  rcases Nat.lt_or_ge a b with hlt | hge
  · rw [Mono, List.pairwise_iff_getElem] at h
    have := h a b (by omega) hb hlt
    simpa [List.getD_eq_getElem?_getD, hb, show a < bi.length by omega] using this
  · have : a = b := by omega
    rw [this]

theorem base_succ {bi : List Nat} (h : Mono bi) {k : Nat} (hk : k < bi.length) :
    base bi (k + 1) = base bi k + size bi k := by
  unfold base size
  rcases Nat.eq_zero_or_pos k with rfl | hp
  · simp
  · have := getD_mono h (show k - 1 ≤ k by omega) hk
    rw [if_neg (by omega), if_neg (by omega), if_neg (by omega)]
    simp only [Nat.add_sub_cancel]
    omega

theorem base_mono {bi : List Nat} (h : Mono bi) {a b : Nat} (hab : a ≤ b) (hb : b ≤ bi.length) :
    base bi a ≤ base bi b := by
  induction b with
  | zero => have : a = 0 := by omega
            rw [this]
  | succ b ih =>
    rcases Nat.lt_or_ge a (b + 1) with hlt | hge
    · have := ih (by omega) (by omega)
      rw [base_succ h (by omega)]; omega
    · have : a = b + 1 := by omega
      rw [this]

theorem total_eq (bi : List Nat) : total bi = base bi bi.length := by
  unfold total base
  cases bi with
  | nil => rfl
  | cons x xs => simp [List.getLast?_eq_getElem?, List.getD_eq_getElem?_getD]

theorem base_add_lt {bi : List Nat} (h : Mono bi) {r i : Nat} (hr : r < bi.length)
    (hi : i < size bi r) : base bi r + i < total bi := by
  rw [total_eq]
  have := base_mono h (show r + 1 ≤ bi.length by omega) le_rfl
  rw [base_succ h hr] at this
  omega

/-- Blocks do not overlap. -/
theorem block_unique {bi : List Nat} (h : Mono bi) {r r' n : Nat} (hr : r < bi.length)
    (hr' : r' < bi.length) (h1 : base bi r ≤ n) (h2 : n < base bi r + size bi r)
    (h3 : base bi r' ≤ n) (h4 : n < base bi r' + size bi r') : r = r' := by
  rw [← base_succ h hr] at h2
  rw [← base_succ h hr'] at h4
  rcases Nat.lt_trichotomy r r' with hlt | heq | hgt
  · have := base_mono h (show r + 1 ≤ r' by omega) (by omega); omega
  · exact heq
  · have := base_mono h (show r' + 1 ≤ r by omega) (by omega); omega

/-- Every index is in a block. -/
theorem block_exists {bi : List Nat} (h : Mono bi) {n : Nat} (hn : n < total bi) :
    ∃ r i, r < bi.length ∧ i < size bi r ∧ n = base bi r + i := by
  rw [total_eq] at hn
  have : ∀ k, k ≤ bi.length → n < base bi k → ∃ r i, r < bi.length ∧ i < size bi r ∧
      n = base bi r + i := by
    intro k
    induction k with
    | zero => intro _ hn; simp [base] at hn
    | succ k ih =>
      intro hk hn
      by_cases hlt : n < base bi k
      · exact ih (by omega) hlt
      · rw [base_succ h (by omega)] at hn
        exact ⟨k, n - base bi k, by omega, by omega, by omega⟩
  exact this _ le_rfl hn

theorem getD_eq_base {bi : List Nat} (k : Nat) : bi.getD k 0 = base bi (k + 1) := by
  simp [base]

theorem findIdx_block {bi : List Nat} (h : Mono bi) {r i : Nat} (hr : r < bi.length)
    (hi : i < size bi r) : (bi.findIdx fun x => base bi r + i < x) = r := by
  rw [List.findIdx_eq hr]
  constructor
  · have : bi[r] = bi.getD r 0 := by simp [List.getD_eq_getElem?_getD, hr]
    rw [this, getD_eq_base, base_succ h hr]
    simp; omega
  · intro j hj
    have : bi[j] = bi.getD j 0 := by simp [List.getD_eq_getElem?_getD, show j < bi.length by omega]
    rw [this, getD_eq_base]
    have := base_mono h (show j + 1 ≤ r by omega) (by omega)
    simp; omega

/-- A sum over all indices is the sum over the blocks of the sums over the blocks' indices. -/
theorem sum_blocks [AddCommMonoid K] {bi : List Nat} (h : Mono bi) (f : Nat → K) :
    ∑ n ∈ Finset.range (total bi), f n =
      ∑ b ∈ Finset.range bi.length, ∑ i ∈ Finset.range (size bi b), f (base bi b + i) := by
  rw [total_eq]
  have : ∀ k, k ≤ bi.length → ∑ n ∈ Finset.range (base bi k), f n =
      ∑ b ∈ Finset.range k, ∑ i ∈ Finset.range (size bi b), f (base bi b + i) := by
    intro k
    induction k with
    | zero => simp [base]
    | succ k ih =>
      intro hk
      rw [base_succ h (by omega), Finset.sum_range_add, Finset.sum_range_succ, ih (by omega)]
  exact this _ le_rfl

/-! ## Block columns -/

theorem mapFind_nil (r : Nat) : mapFind (K := K) [] r = none := rfl

theorem mapFind_cons (p : Nat × Mat K) (m : List (Nat × Mat K)) (r : Nat) :
    mapFind (p :: m) r = if p.1 = r then some p.2 else mapFind m r := by
  by_cases h : p.1 = r <;> simp [mapFind, h]

theorem mapFind_none {m : List (Nat × Mat K)} {r : Nat} (h : ∀ p ∈ m, p.1 ≠ r) :
    mapFind m r = none := by
  induction m with
  | nil => rfl
  | cons p m ih => rw [mapFind_cons, if_neg (h p (by simp)), ih fun q hq => h q (by simp [hq])]

theorem mem_of_mapFind {m : List (Nat × Mat K)} {r : Nat} {J : Mat K} (h : mapFind m r = some J) :
    (r, J) ∈ m := by
  induction m with
  | nil => simp [mapFind_nil] at h
  | cons p m ih =>
    rw [mapFind_cons] at h
    by_cases hp : p.1 = r
    · rw [if_pos hp] at h
      injection h with h
      subst h; subst hp; simp
    · rw [if_neg hp] at h
      exact List.mem_cons_of_mem _ (ih h)

theorem mapFind_of_mem {m : List (Nat × Mat K)} (hs : m.Pairwise fun p q => p.1 < q.1) {p : Nat × Mat K}
    (h : p ∈ m) : mapFind m p.1 = some p.2 := by
  induction m with
  | nil => simp at h
  | cons q m ih =>
    have hs := List.pairwise_cons.1 hs
    rw [mapFind_cons]
    rcases List.mem_cons.1 h with rfl | h
    · rw [if_pos rfl]
    · rw [if_neg (hs.1 p h).ne, ih hs.2 h]

theorem mapFind_mapMod {m : List (Nat × Mat K)} (hs : m.Pairwise fun p q => p.1 < q.1) (r : Nat)
    (z : Mat K) (f : Mat K → Mat K) (r' : Nat) :
    mapFind (mapMod r z f m) r' =
      if r' = r then some (f ((mapFind m r).getD z)) else mapFind m r' := by
  induction m with
  | nil =>
    simp only [mapMod, mapFind_cons, mapFind_nil, Option.getD_none]
    by_cases h : r = r'
    · rw [if_pos h, if_pos h.symm]
    · rw [if_neg h, if_neg (fun e => h e.symm)]
  | cons p m ih =>
    have hs' := List.pairwise_cons.1 hs
    rw [mapMod]
    by_cases h1 : r < p.1
    · rw [if_pos h1]
      have hn : mapFind (p :: m) r = none := mapFind_none (by
        intro q hq
        rcases List.mem_cons.1 hq with rfl | hq
        · omega
        · have := hs'.1 q hq; omega)
      rw [hn, mapFind_cons (r, f z)]
      by_cases h : r' = r
      · simp [h]
      · rw [if_neg h, if_neg (fun e => h e.symm)]
    · rw [if_neg h1]
      by_cases h2 : p.1 < r
      · rw [if_pos h2, mapFind_cons, mapFind_cons, mapFind_cons, if_neg (c := p.1 = r) (by omega),
          ih hs'.2]
        by_cases h : r' = r
        · rw [if_pos h, if_pos h, if_neg (by omega)]
        · rw [if_neg h, if_neg h]
      · rw [if_neg h2]
        have he : p.1 = r := by omega
        rw [mapFind_cons, mapFind_cons, mapFind_cons, if_pos he]
        by_cases h : r' = r
        · rw [if_pos h, if_pos (by simp [he, h])]; rfl
        · rw [if_neg h, if_neg (by simp; omega), if_neg (by omega)]

theorem mem_mapMod {m : List (Nat × Mat K)} {r : Nat} {z : Mat K} {f : Mat K → Mat K}
    {q : Nat × Mat K} (h : q ∈ mapMod r z f m) :
    q ∈ m ∨ q = (r, f z) ∨ ∃ p ∈ m, p.1 = r ∧ q = (r, f p.2) := by
  induction m with
  | nil => simp only [mapMod, List.mem_singleton] at h; exact Or.inr (Or.inl h)
  | cons p m ih =>
    rw [mapMod] at h
    by_cases h1 : r < p.1
    · rw [if_pos h1] at h
      rcases List.mem_cons.1 h with h | h
      · exact Or.inr (Or.inl h)
      · exact Or.inl h
    · rw [if_neg h1] at h
      by_cases h2 : p.1 < r
      · rw [if_pos h2] at h
        rcases List.mem_cons.1 h with h | h
        · exact Or.inl (by simp [h])
        · rcases ih h with h | h | ⟨s, hs, h⟩
          · exact Or.inl (by simp [h])
          · exact Or.inr (Or.inl h)
          · exact Or.inr (Or.inr ⟨s, by simp [hs], h⟩)
      · rw [if_neg h2] at h
        have he : p.1 = r := by omega
        rcases List.mem_cons.1 h with h | h
        · exact Or.inr (Or.inr ⟨p, by simp, he, by rw [h, he]⟩)
        · exact Or.inl (by simp [h])

theorem mapMod_sorted {m : List (Nat × Mat K)} (hs : m.Pairwise fun p q => p.1 < q.1) (r : Nat)
    (z : Mat K) (f : Mat K → Mat K) : (mapMod r z f m).Pairwise fun p q => p.1 < q.1 := by
  induction m with
  | nil => simp [mapMod]
  | cons p m ih =>
    have hs' := List.pairwise_cons.1 hs
    rw [mapMod]
    by_cases h1 : r < p.1
    · rw [if_pos h1]
      refine List.pairwise_cons.2 ⟨?_, hs⟩
      intro q hq
      rcases List.mem_cons.1 hq with rfl | hq
      · exact h1
      · exact h1.trans (hs'.1 q hq)
    · rw [if_neg h1]
      by_cases h2 : p.1 < r
      · rw [if_pos h2]
        refine List.pairwise_cons.2 ⟨?_, ih hs'.2⟩
        intro q hq
        rcases mem_mapMod hq with h | h | ⟨s, hs, e, h⟩
        · exact hs'.1 q h
        · rw [h]; exact h2
        · rw [h]; exact h2
      · rw [if_neg h2]
        exact List.pairwise_cons.2 ⟨hs'.1, hs'.2⟩

/-! ## Blocks of a matrix -/

theorem bcols_getD {A : SBM K} {c : Nat} (hc : c < A.bcols.length) :
    A.bcols[c]? = some (A.bcols.getD c []) := by
  simp [List.getD_eq_getElem?_getD, hc]

theorem WF.sortedD {A : SBM K} (h : WF A) (c : Nat) :
    (A.bcols.getD c []).Pairwise fun p q => p.1 < q.1 := by
  by_cases hc : c < A.bcols.length
  · exact h.sorted c _ (bcols_getD hc)
  · simp [List.getD_eq_getElem?_getD, Nat.not_lt.1 hc]

theorem WF.fitsD {A : SBM K} (h : WF A) (c : Nat) : ∀ p ∈ A.bcols.getD c [],
    c < A.cbi.length ∧ p.1 < A.rbi.length ∧ p.2.rows = size A.rbi p.1 ∧
      p.2.cols = size A.cbi c := by
  intro p hp
  by_cases hc : c < A.bcols.length
  · exact ⟨h.length ▸ hc, h.fits c _ (bcols_getD hc) p hp⟩
  · simp [List.getD_eq_getElem?_getD, Nat.not_lt.1 hc] at hp

theorem WF.blk_fits {A : SBM K} (h : WF A) {r c : Nat} {J : Mat K} (hb : A.blk r c = some J) :
    c < A.cbi.length ∧ r < A.rbi.length ∧ J.rows = size A.rbi r ∧ J.cols = size A.cbi c :=
  h.fitsD c _ (mem_of_mapFind hb)

theorem blk_modBlk [Zero K] {A : SBM K} (h : WF A) {r c : Nat} (hc : c < A.cbi.length)
    (f : Mat K → Mat K) (r' c' : Nat) :
    (A.modBlk r c f).blk r' c' =
      if r' = r ∧ c' = c then
        some (f ((A.blk r c).getD (Mat.zero (size A.rbi r) (size A.cbi c))))
      else A.blk r' c' := by
  have hc' : c < A.bcols.length := h.length ▸ hc
  by_cases hcc : c' = c
  · subst hcc
    have : (A.modBlk r c' f).bcols.getD c' [] =
        mapMod r (Mat.zero (size A.rbi r) (size A.cbi c')) f (A.bcols.getD c' []) := by
      simp [SBM.modBlk, List.getD_eq_getElem?_getD, List.getElem?_modify_eq, hc']
    rw [SBM.blk, this, mapFind_mapMod (h.sortedD c')]
    simp [SBM.blk]
  · have : (A.modBlk r c f).bcols.getD c' [] = A.bcols.getD c' [] := by
      simp only [SBM.modBlk, List.getD_eq_getElem?_getD]
      rw [List.getElem?_modify_ne _ _ (fun e => hcc e.symm)]
    rw [SBM.blk, this, if_neg (fun e => hcc e.2)]; rfl

theorem WF.modBlk [Zero K] {A : SBM K} (h : WF A) {r c : Nat} (hr : r < A.rbi.length)
    (f : Mat K → Mat K)
    (hf : ∀ J : Mat K, J.rows = size A.rbi r → J.cols = size A.cbi c →
      (f J).rows = size A.rbi r ∧ (f J).cols = size A.cbi c) : WF (A.modBlk r c f) := by
  have key : ∀ (c' : Nat) (m : List (Nat × Mat K)), (A.modBlk r c f).bcols[c']? = some m →
      A.bcols[c']? = some m ∨ (c' = c ∧ ∃ m0, A.bcols[c]? = some m0 ∧
        m = mapMod r (Mat.zero (size A.rbi r) (size A.cbi c)) f m0) := by
    intro c' m hm
    by_cases hcc : c' = c
    · subst hcc
      simp only [SBM.modBlk, List.getElem?_modify_eq] at hm
      cases hb : A.bcols[c']? with
      | none => rw [hb] at hm; cases hm
      | some m0 =>
        rw [hb] at hm
        refine Or.inr ⟨rfl, m0, rfl, ?_⟩
        injection hm with hm
        exact hm.symm
    · simp only [SBM.modBlk] at hm
      rw [List.getElem?_modify_ne _ _ (fun e => hcc e.symm)] at hm
      exact Or.inl hm
  refine ⟨h.rows, h.cols, ?_, ?_, ?_⟩
  · simpa [SBM.modBlk] using h.length
  · intro c' m hm
    rcases key c' m hm with hm | ⟨rfl, m0, hm0, rfl⟩
    · exact h.sorted c' m hm
    · exact mapMod_sorted (h.sorted _ m0 hm0) _ _ _
  · intro c' m hm p hp
    rcases key c' m hm with hm | ⟨rfl, m0, hm0, rfl⟩
    · exact h.fits c' m hm p hp
    · rcases mem_mapMod hp with hp | rfl | ⟨q, hq, e, rfl⟩
      · exact h.fits _ m0 hm0 p hp
      · exact ⟨hr, hf _ rfl rfl⟩
      · have := h.fits _ m0 hm0 q hq
        rw [e] at this
        exact ⟨hr, hf _ this.2.1 this.2.2⟩

theorem new_wf {rbi cbi : List Nat} (hr : Mono rbi) (hc : Mono cbi) : WF (SBM.new (K := K) rbi cbi) := by
  have : ∀ (c : Nat) (m : List (Nat × Mat K)), (SBM.new (K := K) rbi cbi).bcols[c]? = some m → m = [] := by
    intro c m hm
    simp only [SBM.new, List.getElem?_replicate] at hm
    split at hm
    · injection hm with hm; exact hm.symm
    · cases hm
  refine ⟨hr, hc, by simp [SBM.new], ?_, ?_⟩
  · intro c m hm; rw [this c m hm]; exact List.Pairwise.nil
  · intro c m hm p hp; rw [this c m hm] at hp; simp at hp

theorem new_blk (rbi cbi : List Nat) (r c : Nat) : (SBM.new (K := K) rbi cbi).blk r c = none := by
  simp only [SBM.new, SBM.blk, List.getD_eq_getElem?_getD, List.getElem?_replicate]
  split <;> rfl

theorem mem_blocks {A : SBM K} {r c : Nat} {J : Mat K} :
    (r, c, J) ∈ A.blocks ↔ ∃ m, A.bcols[c]? = some m ∧ (r, J) ∈ m := by
  simp only [SBM.blocks, List.mem_flatMap, List.mem_map, Prod.mk.injEq, Prod.exists]
  constructor
  · rintro ⟨m, c', hm, r', J', hp, rfl, rfl, rfl⟩
    exact ⟨m, List.mem_zipIdx_iff_getElem?.1 hm, hp⟩
  · rintro ⟨m, hm, hp⟩
    exact ⟨m, c, List.mem_zipIdx_iff_getElem?.2 hm, r, J, hp, rfl, rfl, rfl⟩

theorem mem_blocks_iff {A : SBM K} (h : WF A) {r c : Nat} {J : Mat K} :
    (r, c, J) ∈ A.blocks ↔ A.blk r c = some J := by
  rw [mem_blocks]
  constructor
  · rintro ⟨m, hm, hp⟩
    rw [SBM.blk, List.getD_eq_getElem?_getD, hm]
    exact mapFind_of_mem (h.sorted c m hm) hp
  · intro hb
    have := mem_of_mapFind hb
    have hc := (h.blk_fits hb).1
    exact ⟨_, bcols_getD (h.length ▸ hc), this⟩

/-! ## Sums over the stored blocks -/

theorem sum_map_find [AddCommMonoid K] {L : Type} {m : List (Nat × Mat L)}
    (hs : m.Pairwise fun p q => p.1 < q.1)
    (n : Nat) (hn : ∀ p ∈ m, p.1 < n) (h : Nat → Mat L → K) :
    (m.map fun p => h p.1 p.2).sum =
      ∑ k ∈ Finset.range n, match mapFind m k with | none => 0 | some J => h k J := by
  induction m with
  | nil => simp [mapFind_nil]
  | cons p m ih =>
    have hs' := List.pairwise_cons.1 hs
    rw [List.map_cons, List.sum_cons, ih hs'.2 fun q hq => hn q (by simp [hq])]
    have hp := hn p (by simp)
    have e : ∀ k, (match mapFind (p :: m) k with | none => 0 | some J => h k J) =
        (if k = p.1 then h p.1 p.2 else 0) + match mapFind m k with | none => 0 | some J => h k J := by
      intro k
      rw [mapFind_cons]
      by_cases hk : p.1 = k
      · subst hk
        have : mapFind m p.1 = none := mapFind_none fun q hq => (hs'.1 q hq).ne'
        simp [this]
      · rw [if_neg hk, if_neg (fun e => hk e.symm), zero_add]
    rw [Finset.sum_congr rfl fun k _ => e k, Finset.sum_add_distrib, Finset.sum_ite_eq',
      if_pos (Finset.mem_range.2 hp)]

theorem sum_zipIdx [AddCommMonoid K] {β : Type} (l : List β) (d : β) (F : β → Nat → K) (n : Nat) :
    ((l.zipIdx n).map fun x => F x.1 x.2).sum =
      ∑ c ∈ Finset.range l.length, F (l.getD c d) (n + c) := by
  induction l generalizing n with
  | nil => simp
  | cons a l ih =>
    rw [List.zipIdx_cons, List.map_cons, List.sum_cons, ih, List.length_cons, Finset.sum_range_succ']
    simp only [List.getD_cons_succ, List.getD_cons_zero, Nat.add_zero]
    rw [add_comm]
    congr 1
    exact Finset.sum_congr rfl fun k _ => by rw [show n + 1 + k = n + (k + 1) by omega]

/-- The sum over the stored blocks is the sum over all places of what is stored there. -/
theorem sum_over_blocks [AddCommMonoid K] {L : Type} {A : SBM L} (h : WF A)
    (F : Nat → Nat → Mat L → K) :
    (A.blocks.map fun b => F b.1 b.2.1 b.2.2).sum =
      ∑ c ∈ Finset.range A.cbi.length, ∑ r ∈ Finset.range A.rbi.length,
        match A.blk r c with | none => 0 | some J => F r c J := by
  have e : (A.blocks.map fun b => F b.1 b.2.1 b.2.2).sum =
      (A.bcols.zipIdx.map fun x => (x.1.map fun p => F p.1 x.2 p.2).sum).sum := by
    rw [SBM.blocks]
    generalize A.bcols.zipIdx = l
    induction l with
    | nil => rfl
    | cons x l ih =>
      rw [List.flatMap_cons, List.map_append, List.sum_append, ih, List.map_cons, List.sum_cons,
        List.map_map]
      rfl
  rw [e, sum_zipIdx A.bcols [] (fun m c => (m.map fun p => F p.1 c p.2).sum) 0, h.length]
  apply Finset.sum_congr rfl
  intro c _
  rw [Nat.zero_add]
  exact sum_map_find (h.sortedD c) _ (fun p hp => (h.fitsD c p hp).2.1) fun r J => F r c J

/-! ## Folds of modifications -/

theorem fold_wf [Zero K] {β : Type} (L : List β) (key : β → Nat × Nat) (f : β → Mat K → Mat K)
    (D : SBM K) (hD : WF D)
    (hk : ∀ b ∈ L, (key b).1 < D.rbi.length ∧ ∀ J : Mat K, J.rows = size D.rbi (key b).1 →
      J.cols = size D.cbi (key b).2 →
      (f b J).rows = size D.rbi (key b).1 ∧ (f b J).cols = size D.cbi (key b).2) :
    WF (L.foldl (fun D b => D.modBlk (key b).1 (key b).2 (f b)) D) ∧
      (L.foldl (fun D b => D.modBlk (key b).1 (key b).2 (f b)) D).rbi = D.rbi ∧
      (L.foldl (fun D b => D.modBlk (key b).1 (key b).2 (f b)) D).cbi = D.cbi := by
  induction L generalizing D with
  | nil => exact ⟨hD, rfl, rfl⟩
  | cons b L ih =>
    have hb := hk b (by simp)
    exact ih (D.modBlk (key b).1 (key b).2 (f b)) (hD.modBlk hb.1 _ hb.2)
      fun b' hb' => hk b' (by simp [hb'])

/-- Overwriting: the block at a place is the one written there, or the old one. -/
theorem fold_set [Zero K] {β : Type} (L : List β) (key : β → Nat × Nat) (g : β → Mat K)
    (D : SBM K) (hD : WF D)
    (hk : ∀ b ∈ L, (key b).1 < D.rbi.length ∧ (key b).2 < D.cbi.length ∧
      (g b).rows = size D.rbi (key b).1 ∧ (g b).cols = size D.cbi (key b).2) (r c : Nat) :
    (∀ v, (∀ b ∈ L, key b = (r, c) → g b = v) → (∃ b ∈ L, key b = (r, c)) →
      (L.foldl (fun D b => D.modBlk (key b).1 (key b).2 fun _ => g b) D).blk r c = some v) ∧
    ((∀ b ∈ L, key b ≠ (r, c)) →
      (L.foldl (fun D b => D.modBlk (key b).1 (key b).2 fun _ => g b) D).blk r c = D.blk r c) := by
  induction L generalizing D with
  | nil => exact ⟨fun v _ h => by simp at h, fun _ => rfl⟩
  | cons b L ih =>
    have hb := hk b (by simp)
    have hD' := hD.modBlk (r := (key b).1) (c := (key b).2) hb.1 (fun _ => g b)
      (fun _ _ _ => hb.2.2)
    obtain ⟨ih1, ih2⟩ := ih (D.modBlk (key b).1 (key b).2 fun _ => g b) hD'
      (fun b' hb' => hk b' (by simp [hb']))
    have e := blk_modBlk hD hb.2.1 (fun _ => g b) r c (r := (key b).1)
    constructor
    · intro v hv hex
      by_cases hL : ∃ b' ∈ L, key b' = (r, c)
      · exact ih1 v (fun b' hb' => hv b' (by simp [hb'])) hL
      · push Not at hL
        rw [List.foldl_cons, ih2 hL]
        obtain ⟨b', hb', he⟩ := hex
        rcases List.mem_cons.1 hb' with rfl | hb'
        · rw [e, if_pos (by rw [he]; exact ⟨rfl, rfl⟩), hv b' (by simp) he]
        · exact absurd he (hL b' hb')
    · intro h
      rw [List.foldl_cons, ih2 fun b' hb' => h b' (by simp [hb']), e, if_neg]
      rintro ⟨h1, h2⟩
      exact h b (by simp) (Prod.ext h1.symm h2.symm)

theorem val_modBlk_add [AddMonoid K] {D : SBM K} (hD : WF D) {r c : Nat} (hc : c < D.cbi.length)
    (J : Mat K) (r' c' i j : Nat) :
    val (D.modBlk r c fun d => d.add J) r' c' i j =
      val D r' c' i j + if r = r' ∧ c = c' then J.get i j else 0 := by
  simp only [val, blk_modBlk hD hc]
  by_cases h : r' = r ∧ c' = c
  · rw [if_pos h, if_pos ⟨h.1.symm, h.2.symm⟩, h.1, h.2]
    cases D.blk r c <;> simp [Mat.add, Mat.zero]
  · rw [if_neg h, if_neg (fun e => h ⟨e.1.symm, e.2.symm⟩), add_zero]

/-- Accumulating: the value at a place grows by all the contributions to it. -/
theorem fold_add [AddCommMonoid K] {β : Type} (L : List β) (key : β → Nat × Nat) (g : β → Mat K)
    (D : SBM K) (hD : WF D)
    (hk : ∀ b ∈ L, (key b).1 < D.rbi.length ∧ (key b).2 < D.cbi.length) (r c i j : Nat) :
    val (L.foldl (fun D b => D.modBlk (key b).1 (key b).2 fun d => d.add (g b)) D) r c i j =
      val D r c i j +
        (L.map fun b => if (key b).1 = r ∧ (key b).2 = c then (g b).get i j else 0).sum := by
  induction L generalizing D with
  | nil => simp
  | cons b L ih =>
    have hb := hk b (by simp)
    have hD' := hD.modBlk (r := (key b).1) (c := (key b).2) hb.1 (fun d => d.add (g b))
      (fun _ h1 h2 => ⟨h1, h2⟩)
    rw [List.foldl_cons, ih _ hD' fun b' hb' => hk b' (by simp [hb']), val_modBlk_add hD hb.2,
      List.map_cons, List.sum_cons, add_assoc]

/-! ## Dense matrices of sparse ones -/

theorem denotes_unique [Zero K] {A : SBM K} (h : WF A) {M N : Mat K} (hM : Denotes A M)
    (hN : Denotes A N) : M.Same N := by
  refine ⟨hM.rows.trans hN.rows.symm, hM.cols.trans hN.cols.symm, ?_⟩
  intro n k hn hk
  rw [hM.rows] at hn
  rw [hM.cols] at hk
  obtain ⟨r, i, hr, hi, rfl⟩ := block_exists h.rows hn
  obtain ⟨c, j, hc, hj, rfl⟩ := block_exists h.cols hk
  rw [hM.entry r c i j hr hc hi hj, hN.entry r c i j hr hc hi hj]

theorem fold_assign [Zero K] {β : Type} (L : List β) (rect : β → Nat × Nat × Nat × Nat)
    (g : β → Mat K) (H : Nat → Nat → K) (n k : Nat) :
    let cov := fun b => (rect b).1 ≤ n ∧ n < (rect b).1 + (rect b).2.2.1 ∧ (rect b).2.1 ≤ k ∧
      k < (rect b).2.1 + (rect b).2.2.2
    let res := L.foldl (fun H b => SBM.toDense.assign H (rect b).1 (rect b).2.1 (rect b).2.2.1
      (rect b).2.2.2 (g b)) H
    (∀ v, (∀ b ∈ L, cov b → (g b).get (n - (rect b).1) (k - (rect b).2.1) = v) →
      (∃ b ∈ L, cov b) → res n k = v) ∧ ((∀ b ∈ L, ¬cov b) → res n k = H n k) := by
  dsimp only
  induction L generalizing H with
  | nil => exact ⟨fun v _ h => by simp at h, fun _ => rfl⟩
  | cons b L ih =>
    obtain ⟨ih1, ih2⟩ := ih (SBM.toDense.assign H (rect b).1 (rect b).2.1 (rect b).2.2.1
      (rect b).2.2.2 (g b))
    constructor
    · intro v hv hex
      by_cases hL : ∃ b' ∈ L, (rect b').1 ≤ n ∧ n < (rect b').1 + (rect b').2.2.1 ∧
          (rect b').2.1 ≤ k ∧ k < (rect b').2.1 + (rect b').2.2.2
      · exact ih1 v (fun b' hb' => hv b' (by simp [hb'])) hL
      · rw [List.foldl_cons, ih2 fun b' hb' hc => hL ⟨b', hb', hc⟩]
        obtain ⟨b', hb', hc⟩ := hex
        rcases List.mem_cons.1 hb' with rfl | hb'
        · rw [SBM.toDense.assign, if_pos hc, hv b' (by simp) hc]
        · exact absurd ⟨b', hb', hc⟩ hL
    · intro h
      rw [List.foldl_cons, ih2 fun b' hb' => h b' (by simp [hb']), SBM.toDense.assign,
        if_neg (h b (by simp))]

theorem toDense_denotes [Zero K] {A : SBM K} (h : WF A) : Denotes A A.toDense := by
  refine ⟨rfl, rfl, ?_⟩
  intro r c i j hr hc hi hj
  have key := fold_assign A.blocks (fun b => (base A.rbi b.1, base A.cbi b.2.1, size A.rbi b.1,
    size A.cbi b.2.1)) (fun b => b.2.2) (fun _ _ => (0 : K)) (base A.rbi r + i) (base A.cbi c + j)
  dsimp only at key
  have hcov : ∀ b ∈ A.blocks, (base A.rbi b.1 ≤ base A.rbi r + i ∧
      base A.rbi r + i < base A.rbi b.1 + size A.rbi b.1 ∧ base A.cbi b.2.1 ≤ base A.cbi c + j ∧
      base A.cbi c + j < base A.cbi b.2.1 + size A.cbi b.2.1) → b.1 = r ∧ b.2.1 = c := by
    rintro ⟨r', c', J⟩ hb ⟨h1, h2, h3, h4⟩
    have hf := h.blk_fits ((mem_blocks_iff h).1 hb)
    exact ⟨block_unique h.rows hf.2.1 hr h1 h2 (by omega) (by omega),
      block_unique h.cols hf.1 hc h3 h4 (by omega) (by omega)⟩
  cases hb : A.blk r c with
  | none =>
    have hv : val A r c i j = 0 := by simp [val, hb]
    rw [hv]
    refine key.2 fun b hbm hc => ?_
    obtain ⟨h1, h2⟩ := hcov b hbm hc
    obtain ⟨r', c', J⟩ := b
    dsimp only at h1 h2
    subst h1; subst h2
    rw [(mem_blocks_iff h).1 hbm] at hb
    cases hb
  | some J =>
    have hv : val A r c i j = J.get i j := by simp [val, hb]
    rw [hv]
    refine key.1 _ ?_ ?_
    · intro b hbm hc
      obtain ⟨h1, h2⟩ := hcov b hbm hc
      obtain ⟨r', c', J'⟩ := b
      dsimp only at h1 h2
      subst h1; subst h2
      rw [(mem_blocks_iff h).1 hbm] at hb
      injection hb with hb
      subst hb
      simp
    · exact ⟨(r, c, J), (mem_blocks_iff h).2 hb, by simp, by simpa using hi, by simp, by simpa using hj⟩

/-- Row of the dense matrix times a vector, block by block. -/
theorem dense_row [NonUnitalNonAssocSemiring K] {A : SBM K} (h : WF A) {M : Mat K} (hM : Denotes A M)
    {r i : Nat} (hr : r < A.rbi.length) (hi : i < size A.rbi r) (x : Nat → K) :
    ∑ k ∈ Finset.range M.cols, M.get (base A.rbi r + i) k * x k =
      ∑ c ∈ Finset.range A.cbi.length, ∑ j ∈ Finset.range (size A.cbi c),
        val A r c i j * x (base A.cbi c + j) := by
  rw [hM.cols, sum_blocks h.cols]
  apply Finset.sum_congr rfl
  intro c hc
  apply Finset.sum_congr rfl
  intro j hj
  rw [hM.entry r c i j hr (Finset.mem_range.1 hc) hi (Finset.mem_range.1 hj)]

theorem dense_col [NonUnitalNonAssocSemiring K] {A : SBM K} (h : WF A) {M : Mat K} (hM : Denotes A M)
    {c j : Nat} (hc : c < A.cbi.length) (hj : j < size A.cbi c) (x : Nat → K) :
    ∑ k ∈ Finset.range M.rows, M.get k (base A.cbi c + j) * x k =
      ∑ r ∈ Finset.range A.rbi.length, ∑ i ∈ Finset.range (size A.rbi r),
        val A r c i j * x (base A.rbi r + i) := by
  rw [hM.rows, sum_blocks h.rows]
  apply Finset.sum_congr rfl
  intro r hr
  apply Finset.sum_congr rfl
  intro i hi
  rw [hM.entry r c i j (Finset.mem_range.1 hr) hc (Finset.mem_range.1 hi) hj]

theorem fold_axpy [NonUnitalNonAssocSemiring K] {β : Type} (L : List β) (g : β → Mat K)
    (xo yo : β → Nat) (x y : Nat → K) (n : Nat) :
    L.foldl (fun y b => axpy (g b) x (xo b) y (yo b)) y n =
      y n + (L.map fun b => if yo b ≤ n ∧ n < yo b + (g b).rows then
        ∑ k ∈ Finset.range (g b).cols, (g b).get (n - yo b) k * x (xo b + k) else 0).sum := by
  induction L generalizing y with
  | nil => simp
  | cons b L ih =>
    rw [List.foldl_cons, ih, List.map_cons, List.sum_cons, ← add_assoc]
    congr 1
    rw [axpy]
    split <;> simp

end Kalibr.Sparse
