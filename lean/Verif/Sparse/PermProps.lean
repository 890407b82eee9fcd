import Verif.Sparse.ExportProps

/-!
# C72: symmetric block permutation
-/

namespace Kalibr.Sparse

set_option linter.unusedSectionVars false

variable {K : Type}

/-! ## The permuted layout -/

theorem pinv_lt {pinv : List Nat} {n : Nat} (hp : pinv.Perm (List.range n)) {i : Nat} (hi : i < n) :
    pinv.getD i 0 < n := by
  have hl : pinv.length = n := by simpa using hp.length_eq
  have : pinv.getD i 0 ∈ pinv := by
    simp [List.getD_eq_getElem?_getD, hl, hi]
  simpa using hp.mem_iff.1 this

theorem pinv_inj {pinv : List Nat} {n : Nat} (hp : pinv.Perm (List.range n)) {i j : Nat} (hi : i < n)
    (hj : j < n) (he : pinv.getD i 0 = pinv.getD j 0) : i = j := by
  have hl : pinv.length = n := by simpa using hp.length_eq
  have hn : pinv.Nodup := hp.nodup_iff.2 List.nodup_range
  rw [List.getD_eq_getElem?_getD, List.getD_eq_getElem?_getD, List.getElem?_eq_getElem (by omega),
    List.getElem?_eq_getElem (by omega)] at he
  exact (List.Nodup.getElem_inj_iff hn).1 he

theorem pinv_surj {pinv : List Nat} {n : Nat} (hp : pinv.Perm (List.range n)) {k : Nat} (hk : k < n) :
    ∃ i, i < n ∧ pinv.getD i 0 = k := by
  have hl : pinv.length = n := by simpa using hp.length_eq
  have : k ∈ pinv := hp.mem_iff.2 (by simpa using hk)
  obtain ⟨i, hi, e⟩ := List.mem_iff_getElem.1 this
  exact ⟨i, by omega, by rw [List.getD_eq_getElem?_getD, List.getElem?_eq_getElem hi]; exact e⟩

theorem sizes_fold (pinv : List Nat) (f : Nat → Nat) (n : Nat) (hp : pinv.Perm (List.range n))
    (m : Nat) (hm : m ≤ n) (l : List Nat) (hl : l.length = n) :
    ((List.range m).foldl (fun l i => l.set (pinv.getD i 0) (f i)) l).length = n ∧
    ∀ i, i < m →
      ((List.range m).foldl (fun l i => l.set (pinv.getD i 0) (f i)) l).getD (pinv.getD i 0) 0 = f i := by
  induction m with
  | zero => exact ⟨by simpa using hl, fun i hi => absurd hi (Nat.not_lt_zero _)⟩
  | succ m ih =>
    obtain ⟨h1, h2⟩ := ih (by omega)
    rw [List.range_succ, List.foldl_append]
    simp only [List.foldl_cons, List.foldl_nil]
    refine ⟨by rw [List.length_set]; exact h1, ?_⟩
    intro i hi
    by_cases him : i = m
    · subst him
      rw [List.getD_eq_getElem?_getD, List.getElem?_set_self (by rw [h1]; exact pinv_lt hp (by omega))]
      rfl
    · rw [List.getD_eq_getElem?_getD, List.getElem?_set_ne, ← List.getD_eq_getElem?_getD,
        h2 i (by omega)]
      intro e
      exact him (pinv_inj hp (by omega) (by omega) e).symm

theorem cumul_list (s : List Nat) :
    Mono ((List.range s.length).map fun i => (s.take (i + 1)).sum) ∧
    (∀ k, k ≤ s.length → base ((List.range s.length).map fun i => (s.take (i + 1)).sum) k =
      (s.take k).sum) := by
  have hg : ∀ k, k < s.length →
      ((List.range s.length).map fun i => (s.take (i + 1)).sum).getD k 0 = (s.take (k + 1)).sum := by
    intro k hk
    simp [List.getD_eq_getElem?_getD, hk]
  constructor
  · rw [Mono, List.pairwise_map]
    refine List.Pairwise.imp ?_ List.pairwise_lt_range
    intro a b hab
    have : s.take (a + 1) = (s.take (b + 1)).take (a + 1) := by
      rw [List.take_take, Nat.min_eq_left (by omega)]
    rw [this]
    have h := congrArg List.sum (List.take_append_drop (a + 1) (s.take (b + 1)))
    rw [List.sum_append] at h
    omega
  · intro k hk
    unfold base
    split
    · rename_i h0; subst h0; rfl
    · rw [hg (k - 1) (by omega), show k - 1 + 1 = k by omega]

theorem cumul_list_size (s : List Nat) (k : Nat) (hk : k < s.length) :
    size ((List.range s.length).map fun i => (s.take (i + 1)).sum) k = s.getD k 0 := by
  obtain ⟨h1, h2⟩ := cumul_list s
  have h3 := base_succ h1 (k := k) (by simpa using hk)
  rw [h2 k (by omega), h2 (k + 1) (by omega), ← List.take_concat_get' s k hk, List.sum_append] at h3
  simp only [List.sum_cons, List.sum_nil] at h3
  rw [List.getD_eq_getElem?_getD, List.getElem?_eq_getElem hk]
  simp only [Option.getD_some]
  omega

theorem permLayout_spec (A : SBM K) (pinv : List Nat) (hp : pinv.Perm (List.range A.rbi.length)) :
    (permLayout A pinv).length = A.rbi.length ∧ Mono (permLayout A pinv) ∧
    ∀ i, i < A.rbi.length → size (permLayout A pinv) (pinv.getD i 0) = size A.rbi i := by
  obtain ⟨h1, h2⟩ := sizes_fold pinv (size A.rbi) A.rbi.length hp A.rbi.length le_rfl
    (List.replicate A.rbi.length 0) (by simp)
  rw [permLayout]
  generalize (List.range A.rbi.length).foldl (fun l i => l.set (pinv.getD i 0) (size A.rbi i))
    (List.replicate A.rbi.length 0) = s at h1 h2
  rw [← h1]
  refine ⟨by simp, (cumul_list s).1, ?_⟩
  intro i hi
  rw [cumul_list_size s _ (by rw [h1]; exact pinv_lt hp (by omega)), h2 i (by omega)]

/-! ## The permuted blocks -/

/-- The blocks in the order of the loops. -/
def permBlocks (A : SBM K) : List (Nat × Nat × Mat K) :=
  (List.range A.rbi.length).flatMap fun i => (A.bcols.getD i []).map fun p => (p.1, i, p.2)

/-- Where a block goes. -/
def permKey (pinv : List Nat) (upper : Bool) (b : Nat × Nat × Mat K) : Nat × Nat :=
  if upper = false ∨ pinv.getD b.1 0 ≤ pinv.getD b.2.1 0 then (pinv.getD b.1 0, pinv.getD b.2.1 0)
  else (pinv.getD b.2.1 0, pinv.getD b.1 0)

/-- What is written there. -/
def permVal (pinv : List Nat) (upper : Bool) (b : Nat × Nat × Mat K) : Mat K :=
  if upper = false ∨ pinv.getD b.1 0 ≤ pinv.getD b.2.1 0 then b.2.2 else b.2.2.transpose

theorem symmPermutation_eq [Zero K] (A : SBM K) (h : WF A) (hs : A.rbi = A.cbi) (pinv : List Nat)
    (upper : Bool) (hp : pinv.Perm (List.range A.rbi.length)) :
    A.symmPermutation pinv upper = .ok ((permBlocks A).foldl (fun D b =>
      D.modBlk (permKey pinv upper b).1 (permKey pinv upper b).2 fun _ => permVal pinv upper b)
      (SBM.new (permLayout A pinv) (permLayout A pinv))) := by
  rw [SBM.symmPermutation, if_neg]
  · rw [permBlocks, List.foldl_flatMap]
    simp only [List.foldl_map]
    congr 2
    funext D i
    congr 1
    funext D p
    simp only [permKey, permVal]
    split <;> rfl
  · rintro (h1 | h1)
    · exact h1 hp
    · rw [h.length, hs] at h1; omega

theorem mem_permBlocks {A : SBM K} (h : WF A) (hs : A.rbi = A.cbi) {r c : Nat} {J : Mat K} :
    (r, c, J) ∈ permBlocks A ↔ A.blk r c = some J := by
  simp only [permBlocks, List.mem_flatMap, List.mem_range, List.mem_map, Prod.mk.injEq]
  constructor
  · rintro ⟨i, hi, p, hp, rfl, rfl, rfl⟩
    exact mapFind_of_mem (h.sortedD i) hp
  · intro hb
    exact ⟨c, by rw [hs]; exact (h.blk_fits hb).1, (r, J), mem_of_mapFind hb, rfl, rfl, rfl⟩

theorem perm_fits {A : SBM K} (h : WF A) (hs : A.rbi = A.cbi) {pinv : List Nat}
    (hp : pinv.Perm (List.range A.rbi.length)) (upper : Bool) : ∀ b ∈ permBlocks A,
    (permKey pinv upper b).1 < (permLayout A pinv).length ∧
    (permKey pinv upper b).2 < (permLayout A pinv).length ∧
    (permVal pinv upper b).rows = size (permLayout A pinv) (permKey pinv upper b).1 ∧
    (permVal pinv upper b).cols = size (permLayout A pinv) (permKey pinv upper b).2 := by
  rintro ⟨r, c, J⟩ hb
  have hf := h.blk_fits ((mem_permBlocks h hs).1 hb)
  rw [← hs] at hf
  obtain ⟨h1, _, h3⟩ := permLayout_spec A pinv hp
  have hr := pinv_lt hp hf.2.1
  have hc := pinv_lt hp hf.1
  have er := h3 r hf.2.1
  have ec := h3 c hf.1
  unfold permKey permVal
  rw [h1]
  split
  · exact ⟨hr, hc, by rw [er]; exact hf.2.2.1, by rw [ec]; exact hf.2.2.2⟩
  · refine ⟨hc, hr, ?_, ?_⟩
    · rw [ec]; exact hf.2.2.2
    · rw [er]; exact hf.2.2.1

/-- **C72**.  Permuting a matrix with the same row and column layout moves every block `(r, c)` to
`(pinv[r], pinv[c])`: the dense matrix is permuted in rows and columns, nothing is lost and nothing
appears. -/
theorem C72_symmPermutation [Zero K] (A : SBM K) (h : WF A) (hs : A.rbi = A.cbi) (pinv : List Nat)
    (hp : pinv.Perm (List.range A.rbi.length)) :
    ∃ T, A.symmPermutation pinv false = .ok T ∧ WF T ∧ T.rbi.length = A.rbi.length ∧
      T.cbi = T.rbi ∧ (∀ i, i < A.rbi.length → size T.rbi (pinv.getD i 0) = size A.rbi i) ∧
      (∀ r c, r < A.rbi.length → c < A.cbi.length →
        T.blk (pinv.getD r 0) (pinv.getD c 0) = A.blk r c) ∧
      ∀ M N, Denotes A M → Denotes T N → ∀ r c i j, r < A.rbi.length → c < A.cbi.length →
        i < size A.rbi r → j < size A.cbi c →
        N.get (base T.rbi (pinv.getD r 0) + i) (base T.cbi (pinv.getD c 0) + j) =
          M.get (base A.rbi r + i) (base A.cbi c + j) := by
  obtain ⟨l1, l2, l3⟩ := permLayout_spec A pinv hp
  have hD : WF (SBM.new (K := K) (permLayout A pinv) (permLayout A pinv)) := new_wf l2 l2
  have hk := perm_fits h hs hp false
  obtain ⟨w1, w2, w3⟩ := fold_wf (permBlocks A) (permKey pinv false)
    (fun b _ => permVal pinv false b) _ hD (fun b hb => ⟨(hk b hb).1, fun _ _ _ => (hk b hb).2.2⟩)
  have hblk : ∀ r c, r < A.rbi.length → c < A.cbi.length →
      ((permBlocks A).foldl (fun D b => D.modBlk (permKey pinv false b).1 (permKey pinv false b).2
        fun _ => permVal pinv false b) (SBM.new (permLayout A pinv) (permLayout A pinv))).blk
        (pinv.getD r 0) (pinv.getD c 0) = A.blk r c := by
    intro r c hr hc
    rw [← hs] at hc
    have key := fold_set (permBlocks A) (permKey pinv false) (permVal pinv false) _ hD hk
      (pinv.getD r 0) (pinv.getD c 0)
    have huniq : ∀ b ∈ permBlocks A, permKey pinv false b = (pinv.getD r 0, pinv.getD c 0) →
        b.1 = r ∧ b.2.1 = c := by
      rintro ⟨r', c', J⟩ hb he
      have hf := h.blk_fits ((mem_permBlocks h hs).1 hb)
      rw [← hs] at hf
      simp only [permKey, true_or, if_true, Prod.mk.injEq] at he
      exact ⟨pinv_inj hp hf.2.1 hr he.1, pinv_inj hp hf.1 hc he.2⟩
    cases hb : A.blk r c with
    | none =>
      rw [key.2, new_blk]
      rintro ⟨r', c', J⟩ hm he
      obtain ⟨e1, e2⟩ := huniq _ hm he
      dsimp only at e1 e2
      subst e1; subst e2
      rw [(mem_permBlocks h hs).1 hm] at hb
      cases hb
    | some J =>
      refine key.1 J ?_ ⟨(r, c, J), (mem_permBlocks h hs).2 hb, by simp [permKey]⟩
      rintro ⟨r', c', J'⟩ hm he
      obtain ⟨e1, e2⟩ := huniq _ hm he
      dsimp only at e1 e2
      subst e1; subst e2
      rw [(mem_permBlocks h hs).1 hm] at hb
      injection hb with hb
  refine ⟨_, symmPermutation_eq A h hs pinv false hp, w1, by rw [w2]; exact l1, by rw [w2, w3]; rfl,
    by rw [w2]; exact l3, hblk, ?_⟩
  intro M N hM hN r c i j hr hc hi hj
  have hc' : c < A.rbi.length := by rw [hs]; exact hc
  rw [hN.entry _ _ i j (by rw [w2]; exact (l1.symm ▸ pinv_lt hp hr))
    (by rw [w3]; exact (l1.symm ▸ pinv_lt hp hc')) (by rw [w2]; exact (l3 r hr).symm ▸ hi)
    (by rw [w3]; exact (l3 c hc').symm ▸ (hs ▸ hj)), hM.entry r c i j hr hc hi hj, val, val,
    hblk r c hr hc]

/-! ## Upper triangle -/

/-- Entry of the symmetric matrix of an upper triangle, by blocks. -/
def symVal [Zero K] (A : SBM K) (r c i j : Nat) : K :=
  if r < c then val A r c i j
  else if c < r then val A c r j i
  else if i ≤ j then val A r c i j else val A r c j i

theorem symVal_swap [Zero K] (A : SBM K) {r c i j : Nat} (h : r ≠ c) :
    symVal A r c i j = symVal A c r j i := by
  unfold symVal
  rcases Nat.lt_or_gt_of_ne h with h | h
  · rw [if_pos h, if_neg (by omega), if_pos h]
  · rw [if_neg (by omega), if_pos h, if_pos h]

theorem symm_entry [Zero K] {A : SBM K} (h : WF A) (hs : A.rbi = A.cbi) {M : Mat K}
    (hM : Denotes A M) {r c i j : Nat} (hr : r < A.rbi.length) (hc : c < A.cbi.length)
    (hi : i < size A.rbi r) (hj : j < size A.cbi c) :
    (symm M).get (base A.rbi r + i) (base A.cbi c + j) = symVal A r c i j := by
  have hc' : c < A.rbi.length := hs ▸ hc
  have hr' : r < A.cbi.length := hs ▸ hr
  have hi' : i < size A.cbi r := hs ▸ hi
  have hj' : j < size A.rbi c := hs ▸ hj
  have e2 := hM.entry c r j i hc' hr' hj' hi'
  have hsw : M.get (base A.cbi c + j) (base A.rbi r + i) =
      M.get (base A.rbi c + j) (base A.cbi r + i) := by rw [hs]
  unfold symVal symm
  dsimp only
  rcases Nat.lt_trichotomy r c with hlt | heq | hgt
  · have h3 := base_mono h.rows (show r + 1 ≤ c by omega) (by omega)
    rw [base_succ h.rows hr] at h3
    rw [if_pos hlt, if_pos (by rw [← hs]; omega), hM.entry r c i j hr hc hi hj]
  · subst heq
    rw [if_neg (lt_irrefl _), if_neg (lt_irrefl _)]
    by_cases hij : i ≤ j
    · rw [if_pos hij, if_pos (by rw [← hs]; omega), hM.entry r r i j hr hc hi hj]
    · rw [if_neg hij, if_neg (by rw [← hs]; omega), hsw, e2]
  · have h3 := base_mono h.rows (show c + 1 ≤ r by omega) (by omega)
    rw [base_succ h.rows hc'] at h3
    rw [if_neg (show ¬ base A.rbi r + i ≤ base A.cbi c + j by rw [← hs]; omega), if_neg (show ¬ r < c by omega), if_pos hgt, hsw, e2]

/-- **C72** (upper triangle).  With `upperTriangle`, a matrix that stores the blocks on and above the
diagonal of a symmetric matrix becomes one that stores those of the permuted symmetric matrix. -/
theorem C72_symmPermutation_upper [Zero K] (A : SBM K) (h : WF A) (hs : A.rbi = A.cbi)
    (hu : UpperOnly A) (pinv : List Nat) (hp : pinv.Perm (List.range A.rbi.length)) :
    ∃ T, A.symmPermutation pinv true = .ok T ∧ WF T ∧ T.rbi.length = A.rbi.length ∧
      T.cbi = T.rbi ∧ UpperOnly T ∧
      (∀ i, i < A.rbi.length → size T.rbi (pinv.getD i 0) = size A.rbi i) ∧
      ∀ M N, Denotes A M → Denotes T N → ∀ r c i j, r < A.rbi.length → c < A.cbi.length →
        i < size A.rbi r → j < size A.cbi c →
        (symm N).get (base T.rbi (pinv.getD r 0) + i) (base T.cbi (pinv.getD c 0) + j) =
          (symm M).get (base A.rbi r + i) (base A.cbi c + j) := by
  obtain ⟨l1, l2, l3⟩ := permLayout_spec A pinv hp
  have hD : WF (SBM.new (K := K) (permLayout A pinv) (permLayout A pinv)) := new_wf l2 l2
  have hk := perm_fits h hs hp true
  obtain ⟨w1, w2, w3⟩ := fold_wf (permBlocks A) (permKey pinv true)
    (fun b _ => permVal pinv true b) _ hD (fun b hb => ⟨(hk b hb).1, fun _ _ _ => (hk b hb).2.2⟩)
  refine ⟨_, symmPermutation_eq A h hs pinv true hp, w1, by rw [w2]; exact l1, by rw [w2, w3]; rfl,
    ?_, by rw [w2]; exact l3, ?_⟩
  · -- only blocks on and above the diagonal are written
    intro r c J hb
    by_contra hlt
    have := (fold_set (permBlocks A) (permKey pinv true) (permVal pinv true) _ hD hk r c).2 (by
      rintro ⟨r', c', J'⟩ _ he
      unfold permKey at he
      simp only [Bool.true_eq_false, false_or] at he
      split at he
      · rename_i hle; simp only [Prod.mk.injEq] at he; obtain ⟨rfl, rfl⟩ := he; exact hlt hle
      · rename_i hle; simp only [Prod.mk.injEq] at he; obtain ⟨rfl, rfl⟩ := he; omega)
    rw [this, new_blk] at hb
    cases hb
  · set T := (permBlocks A).foldl (fun D b => D.modBlk (permKey pinv true b).1
      (permKey pinv true b).2 fun _ => permVal pinv true b)
      (SBM.new (permLayout A pinv) (permLayout A pinv)) with hT
    -- the blocks of the result
    have hblk : ∀ r c, r ≤ c → c < A.rbi.length →
        T.blk (min (pinv.getD r 0) (pinv.getD c 0)) (max (pinv.getD r 0) (pinv.getD c 0)) =
          if pinv.getD r 0 ≤ pinv.getD c 0 then A.blk r c else (A.blk r c).map Mat.transpose := by
      intro r c hrc hc
      have hr : r < A.rbi.length := by omega
      have key := fold_set (permBlocks A) (permKey pinv true) (permVal pinv true) _ hD hk
        (min (pinv.getD r 0) (pinv.getD c 0)) (max (pinv.getD r 0) (pinv.getD c 0))
      have huniq : ∀ b ∈ permBlocks A, permKey pinv true b =
          (min (pinv.getD r 0) (pinv.getD c 0), max (pinv.getD r 0) (pinv.getD c 0)) →
          b.1 = r ∧ b.2.1 = c := by
        rintro ⟨r', c', J⟩ hb he
        have hb' := (mem_permBlocks h hs).1 hb
        have hf := h.blk_fits hb'
        have hrc' := hu _ _ _ hb'
        rw [← hs] at hf
        unfold permKey at he
        simp only [Bool.true_eq_false, false_or] at he
        have hcases : (pinv.getD r' 0 = pinv.getD r 0 ∧ pinv.getD c' 0 = pinv.getD c 0) ∨
            (pinv.getD r' 0 = pinv.getD c 0 ∧ pinv.getD c' 0 = pinv.getD r 0) := by
          split at he <;> simp only [Prod.mk.injEq] at he <;> omega
        rcases hcases with ⟨e1, e2⟩ | ⟨e1, e2⟩
        · exact ⟨pinv_inj hp hf.2.1 hr e1, pinv_inj hp hf.1 hc e2⟩
        · have h1 := pinv_inj hp hf.2.1 hc e1
          have h2 := pinv_inj hp hf.1 hr e2
          dsimp only
          omega
      cases hb : A.blk r c with
      | none =>
        rw [key.2, new_blk]
        · split <;> rfl
        · rintro ⟨r', c', J⟩ hm he
          obtain ⟨e1, e2⟩ := huniq _ hm he
          dsimp only at e1 e2
          subst e1; subst e2
          rw [(mem_permBlocks h hs).1 hm] at hb
          cases hb
      | some J =>
        have hv : permVal pinv true (r, c, J) =
            if pinv.getD r 0 ≤ pinv.getD c 0 then J else J.transpose := by
          simp [permVal]
        rw [key.1 (permVal pinv true (r, c, J)) ?_ ⟨(r, c, J), (mem_permBlocks h hs).2 hb, ?_⟩, hv]
        · split <;> rfl
        · rintro ⟨r', c', J'⟩ hm he
          obtain ⟨e1, e2⟩ := huniq _ hm he
          dsimp only at e1 e2
          subst e1; subst e2
          rw [(mem_permBlocks h hs).1 hm] at hb
          injection hb with hb
          rw [hb]
        · unfold permKey
          simp only [Bool.true_eq_false, false_or]
          split <;> simp only [Prod.mk.injEq] <;> omega
    have hval : ∀ r c i j, r ≤ c → c < A.rbi.length →
        symVal T (pinv.getD r 0) (pinv.getD c 0) i j = symVal A r c i j := by
      intro r c i j hrc hc
      have hb := hblk r c hrc hc
      rcases Nat.lt_or_ge r c with hlt | hge
      · have hne : pinv.getD r 0 ≠ pinv.getD c 0 := fun e => by
          have := pinv_inj hp (by omega) hc e; omega
        unfold symVal
        rw [if_pos hlt]
        rcases Nat.lt_or_gt_of_ne hne with h1 | h1
        · rw [if_pos h1]
          rw [Nat.min_eq_left h1.le, Nat.max_eq_right h1.le, if_pos h1.le] at hb
          rw [val, val, hb]
        · rw [if_neg (by omega), if_pos h1]
          rw [Nat.min_eq_right (by omega), Nat.max_eq_left (by omega), if_neg (by omega)] at hb
          rw [val, val, hb]
          cases A.blk r c <;> rfl
      · have : r = c := by omega
        subst this
        rw [Nat.min_self, Nat.max_self, if_pos le_rfl] at hb
        unfold symVal
        rw [if_neg (lt_irrefl _), if_neg (lt_irrefl _), if_neg (lt_irrefl _), if_neg (lt_irrefl _)]
        simp only [val, hb]
    intro M N hM hN r c i j hr hc hi hj
    have hc' : c < A.rbi.length := by rw [hs]; exact hc
    have hTs : T.rbi = T.cbi := by rw [w2, w3]; rfl
    rw [symm_entry w1 hTs hN (by rw [w2]; exact (l1.symm ▸ pinv_lt hp hr))
      (by rw [w3]; exact (l1.symm ▸ pinv_lt hp hc')) (by rw [w2]; exact (l3 r hr).symm ▸ hi)
      (by rw [w3]; exact (l3 c hc').symm ▸ (hs ▸ hj)), symm_entry h hs hM hr hc hi hj]
    rcases Nat.le_total r c with hle | hle
    · exact hval r c i j hle hc'
    · by_cases he : r = c
      · subst he; exact hval r r i j le_rfl hc'
      · have hne : pinv.getD r 0 ≠ pinv.getD c 0 := fun e => he (pinv_inj hp hr hc' e)
        rw [symVal_swap T hne, symVal_swap A he]
        exact hval c r j i hle hr

example : ∃ T, exU.symmPermutation [1, 0] true = .ok T ∧
    T.toDense.toRows = [[6, 4, 5], [0, 1, 2], [0, 9, 3]] := by
  have h : (exU.symmPermutation [1, 0] true).okAnd
      (fun T => T.toDense.toRows = [[6, 4, 5], [0, 1, 2], [0, 9, 3]]) = true := by decide +kernel
  obtain ⟨T, hT, e⟩ := Out.okAnd_spec h
  exact ⟨T, hT, by simpa using e⟩

end Kalibr.Sparse
