import Verif.Sparse.Lemmas
import Verif.Pcg.Core
import Verif.Pcg.Model
import Mathlib.Data.List.GetD

/-!
# What the products of the solver compute
-/

namespace Kalibr.Pcg

open Kalibr.Sparse Matrix

/-- The blocks on and above the diagonal of `A` are those of the symmetric matrix `S`; every diagonal block is
stored.  Whatever is stored below the diagonal does not matter. -/
structure Upper (A : SBM ℝ) (S : ℕ → ℕ → ℝ) : Prop where
  wf : WF A
  square : A.rbi = A.cbi
  diag : ∀ c < A.cbi.length, ∃ J, A.blk c c = some J
  symm : ∀ i j, i < total A.rbi → j < total A.rbi → S i j = S j i
  entry : ∀ r c i j, r ≤ c → c < A.cbi.length → i < size A.cbi r → j < size A.cbi c →
    S (base A.cbi r + i) (base A.cbi c + j) = val A r c i j

/-- The diagonal block. -/
noncomputable def dblk (A : SBM ℝ) (c : ℕ) : Mat ℝ := (A.blk c c).getD ⟨0, 0, fun _ _ => 0⟩

theorem dblk_eq {A : SBM ℝ} {S : ℕ → ℕ → ℝ} (h : Upper A S) {c : ℕ} (hc : c < A.cbi.length) : A.blk c c = some (dblk A c) := by
  obtain ⟨J, hJ⟩ := h.diag c hc
  unfold dblk
  rw [hJ]
  rfl

/-! ## The lists that the solver makes -/

theorem scan_spec (i : ℕ) (m : List (ℕ × Mat ℝ)) (hs : m.Pairwise fun p q => p.1 < q.1) {J : Mat ℝ} (hf : mapFind m i = some J) :
    scan i m = (m.filter (fun p => p.1 < i), some J) := by
  induction m with
  | nil => simp [mapFind_nil] at hf
  | cons p m ih =>
    obtain ⟨h1, h2⟩ := List.pairwise_cons.1 hs
    rw [mapFind_cons] at hf
    by_cases hp : p.1 = i
    · rw [if_pos hp] at hf
      have e : scan i (p :: m) = ([], some p.2) := if_pos hp
      rw [e]
      have : (p :: m).filter (fun p => p.1 < i) = [] := by
        rw [List.filter_eq_nil_iff]
        intro q hq
        rcases List.mem_cons.1 hq with rfl | hq
        · simp [hp]
        · have := h1 q hq
          simp; omega
      rw [this, ← hf]
    · rw [if_neg hp] at hf
      have e : scan i (p :: m) = (p :: (scan i m).1, (scan i m).2) := if_neg hp
      rw [e, ih h2 hf]
      have hm := mem_of_mapFind hf
      have hlt : p.1 < i := h1 _ hm
      rw [List.filter_cons_of_pos (by simpa using hlt)]

theorem scan_col {A : SBM ℝ} {S : ℕ → ℕ → ℝ} (h : Upper A S) {c : ℕ} {m : List (ℕ × Mat ℝ)} (hm : A.bcols[c]? = some m) :
    scan c m = (m.filter (fun p => p.1 < c), some (dblk A c)) := by
  have hc : c < A.cbi.length := by
    rw [← h.wf.length]
    exact (List.getElem?_eq_some_iff.1 hm).1
  apply scan_spec _ _ (h.wf.sorted c m hm)
  have := dblk_eq h hc
  unfold SBM.blk at this
  rw [List.getD_eq_getElem?_getD, hm] at this
  exact this

theorem filterMap_zipIdx {α β : Type} (f : α × ℕ → Option β) (g : ℕ → β) (l : List α) (n : ℕ)
    (h : ∀ c m, l[c]? = some m → f (m, n + c) = some (g (n + c))) :
    (l.zipIdx n).filterMap f = (List.range l.length).map fun c => g (n + c) := by
  induction l generalizing n with
  | nil => rfl
  | cons a l ih =>
    have h0 := h 0 a rfl
    rw [Nat.add_zero] at h0
    rw [List.zipIdx_cons, List.filterMap_cons_some h0, ih (n + 1), List.length_cons, List.range_succ_eq_map, List.map_cons, List.map_map]
    · simp only [Nat.add_zero]
      congr 1
      apply List.map_congr_left
      intro c _
      simp only [Function.comp]
      congr 1
      omega
    · intro c m hm
      have := h (c + 1) m (by simpa using hm)
      rw [show n + 1 + c = n + (c + 1) by omega]
      exact this

theorem diagOf_eq {A : SBM ℝ} {S : ℕ → ℕ → ℝ} (h : Upper A S) : diagOf A = (List.range A.cbi.length).map (dblk A) := by
  unfold diagOf
  rw [filterMap_zipIdx (fun x => (scan x.2 x.1).2) (dblk A) A.bcols 0, h.wf.length]
  · simp
  · intro c m hm
    simp only [Nat.zero_add]
    rw [scan_col h hm]

/-- The blocks above the diagonal. -/
noncomputable def above (A : SBM ℝ) : List (ℕ × ℕ × Mat ℝ) := A.blocks.filter fun b => b.1 < b.2.1

theorem offOf_eq {A : SBM ℝ} {S : ℕ → ℕ → ℝ} (h : Upper A S) (a : ℕ) :
    offOf a A = (above A).map fun b => ((base A.rbi b.1, base A.cbi b.2.1), ⟨a, b.1, b.2.1⟩) := by
  unfold offOf above SBM.blocks
  have : ∀ x ∈ A.bcols.zipIdx, scan x.2 x.1 = (x.1.filter (fun p => p.1 < x.2), some (dblk A x.2)) := by
    rintro ⟨m, c⟩ hx
    exact scan_col h (List.mem_zipIdx_iff_getElem?.1 hx)
  revert this
  generalize A.bcols.zipIdx = l
  intro hl
  induction l with
  | nil => rfl
  | cons x l ih =>
    rw [List.flatMap_cons, List.flatMap_cons, List.filter_append, List.map_append, ih fun y hy => hl y (List.mem_cons_of_mem _ hy),
      hl x (List.mem_cons_self ..)]
    congr 1
    rw [List.filter_map, List.map_map]
    rfl

theorem derefAll_eq {A : SBM ℝ} (hwf : WF A) {H : Heap} {a : ℕ} (hH : H a = some A) (l : List (ℕ × ℕ × Mat ℝ))
    (hl : ∀ b ∈ l, b ∈ A.blocks) :
    derefAll H (l.map fun b => ⟨a, b.1, b.2.1⟩) = .ok (l.map fun b => b.2.2) := by
  induction l with
  | nil => rfl
  | cons b l ih =>
    have hb : A.blk b.1 b.2.1 = some b.2.2 := (mem_blocks_iff hwf).1 (hl b (List.mem_cons_self ..))
    have e : deref H ⟨a, b.1, b.2.1⟩ = .ok b.2.2 := by
      unfold deref
      simp only [hH, hb]
    rw [List.map_cons, List.map_cons]
    unfold derefAll
    rw [e, ih fun b' hb' => hl b' (List.mem_cons_of_mem _ hb')]
    rfl

/-! ## The product with block diagonal matrices -/

theorem multDiag_spec {bi : List ℕ} (hm : Mono bi) (src : ℕ → ℝ) (L : List (Mat ℝ)) : L.length ≤ bi.length →
    (∀ k J, L[k]? = some J → J.rows = size bi k) → ∀ (dest : ℕ → ℝ) (r i : ℕ) (J : Mat ℝ), L[r]? = some J → i < size bi r →
    multDiag bi L src dest (base bi r + i) = ∑ k ∈ Finset.range J.cols, J.get i k * src (base bi r + k) := by
  induction L using List.reverseRecOn with
  | nil => intro _ _ dest r i J h; simp at h
  | append_singleton L B ih =>
    intro hlen hsz dest r i J hJ hi
    have e : multDiag bi (L ++ [B]) src dest = axy B src (base bi L.length) (multDiag bi L src dest) (base bi L.length) := by
      unfold multDiag
      rw [List.zipIdx_append, List.foldl_append]
      simp
    rw [List.length_append, List.length_singleton] at hlen
    have hB : B.rows = size bi L.length := hsz L.length B (by simp)
    have hr : r < L.length + 1 := by
      have := (List.getElem?_eq_some_iff.1 hJ).1
      simpa using this
    rw [e]
    unfold axy
    rcases Nat.lt_succ_iff_lt_or_eq.1 hr with hlt | rfl
    · have hne : ¬ (base bi L.length ≤ base bi r + i ∧ base bi r + i < base bi L.length + B.rows) := by
        rintro ⟨h1, h2⟩
        rw [hB] at h2
        have := block_unique hm (r := L.length) (r' := r) (n := base bi r + i) (by omega) (by omega) h1 h2 (by omega) (by omega)
        omega
      rw [if_neg hne]
      exact ih (by omega) (fun k J hk => hsz k J (by
        have := (List.getElem?_eq_some_iff.1 hk).1
        rw [List.getElem?_append_left this]
        exact hk)) dest r i J (by rw [← hJ, List.getElem?_append_left hlt]) hi
    · have : J = B := by
        rw [List.getElem?_append_right (le_refl _)] at hJ
        simpa using hJ.symm
      subst this
      rw [if_pos (by rw [hB]; omega)]
      simp

theorem dblk_fits {A : SBM ℝ} {S : ℕ → ℕ → ℝ} (h : Upper A S) {c : ℕ} (hc : c < A.cbi.length) :
    (dblk A c).rows = size A.cbi c ∧ (dblk A c).cols = size A.cbi c := by
  have := h.wf.blk_fits (dblk_eq h hc)
  rw [h.square] at this
  exact ⟨this.2.2.1, this.2.2.2⟩

/-- Products with the diagonal blocks and with their inverses. -/
theorem multDiag_blocks {A : SBM ℝ} {S : ℕ → ℕ → ℝ} (h : Upper A S) (f : Mat ℝ → Mat ℝ) (hf : ∀ J, (f J).rows = J.rows)
    (src dest : ℕ → ℝ) {r i : ℕ} (hr : r < A.cbi.length) (hi : i < size A.cbi r) :
    multDiag A.cbi ((diagOf A).map f) src dest (base A.cbi r + i) =
      ∑ k ∈ Finset.range (f (dblk A r)).cols, (f (dblk A r)).get i k * src (base A.cbi r + k) := by
  apply multDiag_spec h.wf.cols
  · rw [diagOf_eq h]; simp
  · intro k J hk
    rw [diagOf_eq h, List.map_map, List.getElem?_map] at hk
    obtain ⟨c, hc, rfl⟩ := Option.map_eq_some_iff.1 hk
    obtain ⟨hk1, hk2⟩ := List.getElem?_eq_some_iff.1 hc
    rw [List.getElem_range] at hk2
    subst hk2
    simp only [List.length_range] at hk1
    rw [Function.comp, hf]
    exact (dblk_fits h hk1).1
  · rw [diagOf_eq h, List.map_map, List.getElem?_map, List.getElem?_range hr]
    rfl
  · exact hi

/-! ## The product with the whole matrix -/

theorem fold_two (l : List ((ℕ × ℕ) × Mat ℝ)) (x y : ℕ → ℝ) (n : ℕ) :
    l.foldl (fun y b => axpy b.2.transpose x b.1.1 (axpy b.2 x b.1.2 y b.1.1) b.1.2) y n =
      y n + (l.map fun b =>
        (if b.1.1 ≤ n ∧ n < b.1.1 + b.2.rows then ∑ k ∈ Finset.range b.2.cols, b.2.get (n - b.1.1) k * x (b.1.2 + k) else 0) +
        (if b.1.2 ≤ n ∧ n < b.1.2 + b.2.cols then ∑ k ∈ Finset.range b.2.rows, b.2.get k (n - b.1.2) * x (b.1.1 + k) else 0)).sum := by
  induction l generalizing y with
  | nil => simp
  | cons b l ih =>
    rw [List.foldl_cons, ih, List.map_cons, List.sum_cons, ← add_assoc]
    congr 1
    unfold axpy Mat.transpose
    simp only
    split <;> split <;> ring

theorem sum_over {A : SBM ℝ} (h : WF A) (F : ℕ → ℕ → Mat ℝ → ℝ) :
    (A.blocks.map fun b => F b.1 b.2.1 b.2.2).sum =
      ∑ c ∈ Finset.range A.cbi.length, ∑ r ∈ Finset.range A.rbi.length, (A.blk r c).elim 0 (F r c) := by
  rw [sum_over_blocks h F]
  apply Finset.sum_congr rfl
  intro c _
  apply Finset.sum_congr rfl
  intro r _
  cases A.blk r c <;> rfl

/-- The rows of `S` block by block. -/
theorem row_up {A : SBM ℝ} {S : ℕ → ℕ → ℝ} (h : Upper A S) {r c i : ℕ} (hrc : r ≤ c) (hc : c < A.cbi.length) (hi : i < size A.cbi r)
    (x : ℕ → ℝ) : ∑ j ∈ Finset.range (size A.cbi c), S (base A.cbi r + i) (base A.cbi c + j) * x (base A.cbi c + j) =
      ∑ j ∈ Finset.range (size A.cbi c), val A r c i j * x (base A.cbi c + j) :=
  Finset.sum_congr rfl fun j hj => by rw [h.entry r c i j hrc hc hi (Finset.mem_range.1 hj)]

theorem row_lo {A : SBM ℝ} {S : ℕ → ℕ → ℝ} (h : Upper A S) {r c i : ℕ} (hrc : c ≤ r) (hr : r < A.cbi.length) (hi : i < size A.cbi r)
    (x : ℕ → ℝ) : ∑ j ∈ Finset.range (size A.cbi c), S (base A.cbi r + i) (base A.cbi c + j) * x (base A.cbi c + j) =
      ∑ j ∈ Finset.range (size A.cbi c), val A c r j i * x (base A.cbi c + j) :=
  Finset.sum_congr rfl fun j hj => by
    have hj' := Finset.mem_range.1 hj
    rw [h.symm _ _ (by rw [h.square]; exact base_add_lt h.wf.cols hr hi) (by rw [h.square]; exact base_add_lt h.wf.cols (by omega) hj'),
      h.entry c r j i hrc hr hj' hi]

theorem mult_spec {A : SBM ℝ} {S : ℕ → ℕ → ℝ} (h : Upper A S) (src dest : ℕ → ℝ) {n : ℕ} (hn : n < total A.rbi) :
    mult A.cbi (diagOf A) ((above A).map fun b => (base A.rbi b.1, base A.cbi b.2.1)) ((above A).map fun b => b.2.2) src dest n =
      ∑ k ∈ Finset.range (total A.rbi), S n k * src k := by
  rw [h.square] at hn ⊢
  obtain ⟨r, i, hr, hi, rfl⟩ := block_exists h.wf.cols hn
  rw [sum_blocks h.wf.cols]
  obtain ⟨T, hT⟩ : ∃ T : ℕ → ℝ, T = fun c => ∑ j ∈ Finset.range (size A.cbi c), S (base A.cbi r + i) (base A.cbi c + j) * src (base A.cbi c + j) := ⟨_, rfl⟩
  have eT : ∀ c, ∑ j ∈ Finset.range (size A.cbi c), S (base A.cbi r + i) (base A.cbi c + j) * src (base A.cbi c + j) = T c := by
    intro c; rw [hT]
  simp only [eT]
  unfold mult
  have ez : ((above A).map fun b => (base A.cbi b.1, base A.cbi b.2.1)).zip ((above A).map fun b => b.2.2) =
      (above A).map fun b => ((base A.cbi b.1, base A.cbi b.2.1), b.2.2) := by
    rw [List.zip_map']
  rw [ez, fold_two, List.map_map]
  have ed : multDiag A.cbi (diagOf A) src dest (base A.cbi r + i) = T r := by
    have := multDiag_blocks h id (fun _ => rfl) src dest hr hi
    rw [List.map_id] at this
    rw [this, ← eT, row_up h le_rfl hr hi]
    simp only [id]
    rw [(dblk_fits h hr).2]
    apply Finset.sum_congr rfl
    intro k _
    unfold val
    rw [dblk_eq h hr]
  rw [ed]
  -- the other blocks
  obtain ⟨F, hF⟩ : ∃ F : ℕ → ℕ → Mat ℝ → ℝ, F = fun r' c J =>
      if r' < c then
        (if base A.cbi r' ≤ base A.cbi r + i ∧ base A.cbi r + i < base A.cbi r' + J.rows then
          ∑ k ∈ Finset.range J.cols, J.get (base A.cbi r + i - base A.cbi r') k * src (base A.cbi c + k) else 0) +
        (if base A.cbi c ≤ base A.cbi r + i ∧ base A.cbi r + i < base A.cbi c + J.cols then
          ∑ k ∈ Finset.range J.rows, J.get k (base A.cbi r + i - base A.cbi c) * src (base A.cbi r' + k) else 0)
      else 0 := ⟨_, rfl⟩
  have es : ((above A).map ((fun b : (ℕ × ℕ) × Mat ℝ =>
        (if b.1.1 ≤ base A.cbi r + i ∧ base A.cbi r + i < b.1.1 + b.2.rows then
          ∑ k ∈ Finset.range b.2.cols, b.2.get (base A.cbi r + i - b.1.1) k * src (b.1.2 + k) else 0) +
        (if b.1.2 ≤ base A.cbi r + i ∧ base A.cbi r + i < b.1.2 + b.2.cols then
          ∑ k ∈ Finset.range b.2.rows, b.2.get k (base A.cbi r + i - b.1.2) * src (b.1.1 + k) else 0)) ∘
        fun b : ℕ × ℕ × Mat ℝ => ((base A.cbi b.1, base A.cbi b.2.1), b.2.2))).sum =
      (A.blocks.map fun b => F b.1 b.2.1 b.2.2).sum := by
    unfold above
    generalize A.blocks = l
    induction l with
    | nil => rfl
    | cons b l ih =>
      rw [List.map_cons, List.sum_cons, ← ih]
      by_cases hb : b.1 < b.2.1
      · rw [List.filter_cons_of_pos (by simpa using hb), List.map_cons, List.sum_cons]
        congr 1
        rw [hF]
        exact (if_pos hb).symm
      · have z : F b.1 b.2.1 b.2.2 = 0 := by
          rw [hF]
          exact if_neg hb
        rw [List.filter_cons_of_neg (by simpa using hb), z, zero_add]
  rw [es, sum_over h.wf F, h.square]
  have term : ∀ c ∈ Finset.range A.cbi.length, ∀ r' ∈ Finset.range A.cbi.length,
      (A.blk r' c).elim 0 (F r' c) =
        (if r' = r then (if r < c then T c else 0) else 0) + (if c = r then (if r' < r then T r' else 0) else 0) := by
    intro c hc r' hr'
    have hc' := Finset.mem_range.1 hc
    have hr'' := Finset.mem_range.1 hr'
    cases hb : A.blk r' c with
    | none =>
      have z1 : r' = r → r < c → T c = 0 := by
        rintro rfl hlt
        rw [← eT, row_up h hlt.le hc' hi]
        unfold val
        rw [hb]
        simp
      have z2 : c = r → r' < r → T r' = 0 := by
        rintro rfl hlt
        rw [← eT, row_lo h hlt.le hr hi]
        unfold val
        rw [hb]
        simp
      simp only [Option.elim]
      by_cases e1 : r' = r
      · rw [if_pos e1]
        by_cases e2 : c = r
        · rw [if_pos e2, if_neg (by omega), if_neg (by omega), add_zero]
        · rw [if_neg e2]
          by_cases e3 : r < c
          · rw [if_pos e3, z1 e1 e3, add_zero]
          · rw [if_neg e3, add_zero]
      · rw [if_neg e1]
        by_cases e2 : c = r
        · rw [if_pos e2]
          by_cases e3 : r' < r
          · rw [if_pos e3, z2 e2 e3, add_zero]
          · rw [if_neg e3, add_zero]
        · rw [if_neg e2, add_zero]
    | some J =>
      have hf := h.wf.blk_fits hb
      rw [h.square] at hf
      obtain ⟨-, -, f1, f2⟩ := hf
      rw [hF]
      simp only [Option.elim]
      have c1 : (base A.cbi r' ≤ base A.cbi r + i ∧ base A.cbi r + i < base A.cbi r' + J.rows) ↔ r' = r := by
        rw [f1]
        constructor
        · rintro ⟨h1, h2⟩
          exact block_unique h.wf.cols hr'' hr h1 h2 (by omega) (by omega)
        · rintro rfl
          omega
      have c2 : (base A.cbi c ≤ base A.cbi r + i ∧ base A.cbi r + i < base A.cbi c + J.cols) ↔ c = r := by
        rw [f2]
        constructor
        · rintro ⟨h1, h2⟩
          exact block_unique h.wf.cols hc' hr h1 h2 (by omega) (by omega)
        · rintro rfl
          omega
      by_cases hlt : r' < c
      · rw [if_pos hlt]
        congr 1
        · by_cases e1 : r' = r
          · rw [if_pos (c1.2 e1), if_pos e1, if_pos (by omega)]
            subst e1
            rw [← eT, row_up h hlt.le hc' hi, f2]
            apply Finset.sum_congr rfl
            intro k _
            unfold val
            rw [hb]
            simp
          · rw [if_neg (fun hc => e1 (c1.1 hc)), if_neg e1]
        · by_cases e2 : c = r
          · rw [if_pos (c2.2 e2), if_pos e2, if_pos (by omega)]
            subst e2
            rw [← eT, row_lo h hlt.le hc' hi, f1]
            apply Finset.sum_congr rfl
            intro k _
            unfold val
            rw [hb]
            simp
          · rw [if_neg (fun hc => e2 (c2.1 hc)), if_neg e2]
      · rw [if_neg hlt]
        by_cases e1 : r' = r
        · rw [if_pos e1, if_neg (by omega)]
          by_cases e2 : c = r
          · rw [if_pos e2, if_neg (by omega), add_zero]
          · rw [if_neg e2, add_zero]
        · rw [if_neg e1]
          by_cases e2 : c = r
          · rw [if_pos e2, if_neg (by omega), add_zero]
          · rw [if_neg e2, add_zero]
  rw [Finset.sum_congr rfl fun c hc => Finset.sum_congr rfl fun r' hr' => term c hc r' hr']
  simp only [Finset.sum_add_distrib]
  have s1 : ∀ c, ∑ r' ∈ Finset.range A.cbi.length, (if r' = r then (if r < c then T c else 0) else 0) = if r < c then T c else 0 := by
    intro c
    rw [Finset.sum_ite_eq', if_pos (Finset.mem_range.2 hr)]
  have s2 : ∑ c ∈ Finset.range A.cbi.length, ∑ r' ∈ Finset.range A.cbi.length, (if c = r then (if r' < r then T r' else 0) else 0) =
      ∑ c ∈ Finset.range A.cbi.length, if c < r then T c else 0 := by
    rw [Finset.sum_eq_single r]
    · apply Finset.sum_congr rfl
      intro r' _
      rw [if_pos rfl]
    · intro c _ hne
      apply Finset.sum_eq_zero
      intro r' _
      rw [if_neg hne]
    · intro hnot
      exact absurd (Finset.mem_range.2 hr) hnot
  rw [s2, Finset.sum_congr rfl fun c _ => s1 c, ← Finset.sum_add_distrib]
  have s3 : T r = ∑ c ∈ Finset.range A.cbi.length, if c = r then T c else 0 := by
    rw [Finset.sum_ite_eq', if_pos (Finset.mem_range.2 hr)]
  rw [s3, ← Finset.sum_add_distrib]
  apply Finset.sum_congr rfl
  intro c _
  rcases lt_trichotomy c r with h1 | h1 | h1
  · rw [if_neg (by omega), if_neg (by omega), if_pos h1]; ring
  · rw [if_pos h1, if_neg (by omega), if_neg (by omega)]; ring
  · rw [if_neg (by omega), if_pos h1, if_neg (by omega)]; ring

end Kalibr.Pcg
