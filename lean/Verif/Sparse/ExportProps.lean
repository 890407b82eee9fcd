import Verif.Sparse.ExportLemmas

/-!
# C34: compressed-column exports list exactly the stored entries; C72: symmetric permutation
-/

namespace Kalibr.Sparse

set_option linter.unusedSectionVars false

variable {K : Type}

/-- Same layout of rows and columns, without empty blocks. -/
def Square (A : SBM K) : Prop :=
  A.rbi = A.cbi ∧ ∀ k, k < A.rbi.length → 0 < size A.rbi k

/-- No block is stored below the diagonal. -/
def UpperOnly (A : SBM K) : Prop := ∀ r c J, A.blk r c = some J → r ≤ c

/-- The part of a matrix on and above the diagonal. -/
def upperPart [Zero K] (M : Mat K) : Mat K :=
  { M with get := fun i j => if i ≤ j then M.get i j else 0 }

/-- The symmetric matrix whose part on and above the diagonal is that of `M`. -/
def symm (M : Mat K) : Mat K :=
  { M with get := fun i j => if i ≤ j then M.get i j else M.get j i }

theorem base_inj {bi : List Nat} (h : Mono bi) (hp : ∀ k, k < bi.length → 0 < size bi k) {a b : Nat}
    (ha : a < bi.length) (hb : b < bi.length) (he : base bi a = base bi b) : a = b := by
  have h1 := hp a ha
  have h2 := hp b hb
  exact block_unique h ha hb le_rfl (by omega) (by omega) (by omega)

theorem inBounds_of {A : SBM K} (h : WF A) {upper : Bool}
    (hb : ∀ i c, i < A.cbi.length → c < size A.cbi i → ∀ p ∈ A.bcols.getD i [],
      elems A upper i c p ≤ size A.rbi p.1) : inBounds A upper = true := by
  simp only [inBounds, List.all_eq_true, List.mem_range, decide_eq_true_eq]
  intro i hi c hc p hp
  rw [(h.fitsD i p hp).2.2.1]
  exact hb i c (h.length ▸ hi) hc p hp

theorem fillCCS_eq {A : SBM K} {upper : Bool} (hb : inBounds A upper = true) :
    A.fillCCS upper = .ok ((allCols A (entries A upper)).flatten.length,
      CCS.ofCols (allCols A (entries A upper))) := by
  simp only [SBM.fillCCS, hb, Bool.true_eq_false, if_false, writeBlocks_eq]
  rw [allCols_fold]
  obtain ⟨h1, h2⟩ := cols_fold_new (allCols A (entries A upper))
  rw [h2, h1]

theorem ofCols_count (C : List (List (Nat × K))) : (CCS.ofCols C).ci.length = C.flatten.length := by
  rw [CCS.ofCols, List.length_map]

theorem elems_full {A : SBM K} (h : WF A) (i c : Nat) : ∀ p ∈ A.bcols.getD i [],
    elems A false i c p ≤ size A.rbi p.1 := by
  intro p hp
  simp only [elems, Bool.false_eq_true, false_and, if_false]
  rw [(h.fitsD i p hp).2.2.1]

/-- **C34**.  Exporting a matrix writes well-formed arrays that hold exactly the matrix: pointers from
zero to the returned count, rows strictly increasing in each column, values equal to the dense entries,
and everything not listed is zero. -/
theorem C34_fillCCS [Zero K] (A : SBM K) (h : WF A) (M : Mat K) (hM : Denotes A M) :
    ∃ n s, A.fillCCS false = .ok (n, s) ∧ n = s.ci.length ∧ s.Lists M := by
  refine ⟨_, _, fillCCS_eq (inBounds_of h fun i c _ _ => elems_full h i c), ?_, ?_⟩
  · rw [ofCols_count]
  · refine lists_of_cols h _ M hM.rows hM.cols ?_ ?_ ?_ ?_
    · exact fun i c _ _ => entries_increasing h (elems_full h i c)
    · exact fun i c _ _ => entries_inside h (elems_full h i c)
    · exact fun i c _ hc => entries_value h hc hM (elems_full h i c)
    · intro i c r k hi hc hr hk hnot
      rw [hM.entry r i k c hr hi hk hc, val, not_listed_full h hk hnot]

theorem elems_upper {A : SBM K} (h : WF A) (hs : Square A) {i c : Nat} (hc : c < size A.cbi i)
    {p : Nat × Mat K} (hp : p ∈ A.bcols.getD i []) :
    elems A true i c p = if p.1 = i then c + 1 else size A.rbi p.1 := by
  have hf := h.fitsD i p hp
  have hi : i < A.rbi.length := by rw [hs.1]; exact hf.1
  unfold elems
  by_cases he : p.1 = i
  · rw [if_pos he, if_pos ⟨rfl, by rw [he, hs.1]⟩]
  · rw [if_neg he, if_neg, hf.2.2.1]
    rintro ⟨-, e⟩
    rw [← hs.1] at e
    exact he (base_inj h.rows hs.2 hf.2.1 hi e)

theorem elems_upper_le {A : SBM K} (h : WF A) (hs : Square A) {i c : Nat} (hc : c < size A.cbi i) :
    ∀ p ∈ A.bcols.getD i [], elems A true i c p ≤ size A.rbi p.1 := by
  intro p hp
  rw [elems_upper h hs hc hp]
  split
  · rename_i he; rw [he, hs.1]; omega
  · exact le_rfl

theorem entries_upper_le {A : SBM K} (h : WF A) (hs : Square A) (hu : UpperOnly A) {i c : Nat}
    (hc : c < size A.cbi i) : ∀ e ∈ entries A true i c, e.1 ≤ base A.cbi i + c := by
  intro e he
  obtain ⟨p, hp, k, hk, rfl⟩ := mem_entries.1 he
  have hf := h.fitsD i p hp
  have hle : p.1 ≤ i := hu p.1 i p.2 (mapFind_of_mem (h.sortedD i) hp)
  rw [elems_upper h hs hc hp] at hk
  have hi : i < A.rbi.length := by rw [hs.1]; exact hf.1
  show base A.rbi p.1 + k ≤ _
  by_cases hpi : p.1 = i
  · rw [if_pos hpi] at hk
    rw [hpi, hs.1]; omega
  · rw [if_neg hpi] at hk
    have := base_mono h.rows (show p.1 + 1 ≤ i by omega) (by omega)
    rw [base_succ h.rows (by omega)] at this
    rw [← hs.1]; omega

theorem not_listed_upper {A : SBM K} (h : WF A) (hs : Square A) {i c r k : Nat}
    (hi : i < A.cbi.length) (hr : r < A.rbi.length) (hk : k < size A.rbi r) (hc : c < size A.cbi i)
    (hle : base A.rbi r + k ≤ base A.cbi i + c)
    (hnot : base A.rbi r + k ∉ (entries A true i c).map (·.1)) : A.blk r i = none := by
  cases hb : A.blk r i with
  | none => rfl
  | some J =>
    exfalso
    apply hnot
    have hm := mem_of_mapFind hb
    refine List.mem_map.2 ⟨(base A.rbi r + k, J.get k c), mem_entries.2 ⟨(r, J), hm, k, ?_, rfl⟩, rfl⟩
    rw [elems_upper h hs hc hm]
    split
    · rename_i he
      dsimp only at he
      rw [he, hs.1] at hle
      omega
    · exact hk

/-- **C34** (upper triangle, partial).  For a symmetric layout and blocks on and above the diagonal
only, exporting with `upperTriangle` gives exactly the part on and above the diagonal.
Missing: see the counterexample. -/
theorem C34_fillCCS_upper_partial [Zero K] (A : SBM K) (h : WF A) (hs : Square A) (hu : UpperOnly A)
    (M : Mat K) (hM : Denotes A M) :
    ∃ n s, A.fillCCS true = .ok (n, s) ∧ n = s.ci.length ∧ s.Lists (upperPart M) := by
  refine ⟨_, _, fillCCS_eq (inBounds_of h fun i c _ hc => elems_upper_le h hs hc), ?_, ?_⟩
  · rw [ofCols_count]
  · refine lists_of_cols h _ (upperPart M) hM.rows hM.cols ?_ ?_ ?_ ?_
    · exact fun i c _ hc => entries_increasing h (elems_upper_le h hs hc)
    · exact fun i c _ hc => entries_inside h (elems_upper_le h hs hc)
    · intro i c _ hc e he
      rw [entries_value h hc hM (elems_upper_le h hs hc) e he, upperPart]
      dsimp only
      rw [if_pos (entries_upper_le h hs hu hc e he)]
    · intro i c r k hi hc hr hk hnot
      rw [upperPart]
      dsimp only
      split
      · rename_i hle
        rw [hM.entry r i k c hr hi hk hc, val, not_listed_upper h hs hi hr hk hc hle hnot]
      · rfl

/-- **C34** is false of `upperTriangle` if a block below the diagonal is stored: it is written too. -/
theorem C34_fillCCS_upper_counterexample :
    ∃ (A : SBM Int) (n : Nat) (s : CCS Int), WF A ∧ Square A ∧ A.fillCCS true = .ok (n, s) ∧
      (1, 7) ∈ s.column 0 := by
  refine ⟨(SBM.new [1, 2] [1, 2]).modBlk 1 0 fun _ => Mat.ofRows 1 1 [[7]], 1, ⟨[0, 1, 1], [1], [7]⟩,
    ?_, ⟨rfl, ?_⟩, rfl, by decide +kernel⟩
  · exact (new_wf (by simp [Mono]) (by simp [Mono])).modBlk (by decide) _ (fun _ _ _ => ⟨rfl, rfl⟩)
  · intro k hk
    change k < 2 at hk
    have : k = 0 ∨ k = 1 := by omega
    rcases this with rfl | rfl <;> decide +kernel

/-- **C34** (values only).  Rewriting only the values writes the values of the full export in the same
order. -/
theorem C34_values (A : SBM K) (upper : Bool) (n : Nat) (s : CCS K)
    (he : A.fillCCS upper = .ok (n, s)) : A.fillCCSValues upper = .ok (n, s.cx) := by
  cases hb : inBounds A upper with
  | false => simp [SBM.fillCCS, hb] at he
  | true =>
    rw [fillCCS_eq hb] at he
    simp only [Out.ok.injEq, Prod.mk.injEq] at he
    obtain ⟨rfl, rfl⟩ := he
    simp only [SBM.fillCCSValues, hb, Bool.true_eq_false, if_false, Out.ok.injEq, Prod.mk.injEq]
    have app : ∀ {β : Type} (L : List β) (f : β → List K) (x : List K),
        L.foldl (fun x p => x ++ f p) x = x ++ L.flatMap f := by
      intro β L f x
      induction L generalizing x with
      | nil => simp
      | cons a L ih => rw [List.foldl_cons, ih, List.flatMap_cons, List.append_assoc]
    have e : (List.range A.bcols.length).foldl (fun x i =>
        (List.range (size A.cbi i)).foldl (fun x c =>
          (A.bcols.getD i []).foldl (fun x p =>
            x ++ (List.range (elems A upper i c p)).map fun k => p.2.get k c) x) x) [] =
        (CCS.ofCols (allCols A (entries A upper))).cx := by
      simp only [app, List.nil_append, CCS.ofCols, allCols]
      simp only [entries, List.flatMap, List.map_flatten, List.map_map, List.flatten_flatten]
      simp only [Function.comp_def, List.map_flatten, List.map_map]
    rw [e]
    refine ⟨?_, rfl⟩
    rw [CCS.ofCols, List.length_map]

theorem mem_mirror {A : SBM K} {i c : Nat} {e : Nat × K} (he : e ∈ mirror A i c) :
    ∃ d b q, i + d < A.bcols.length ∧ A.blk i (i + d) = some b ∧ q < size A.cbi (i + d) ∧
      (d = 0 → c < q) ∧ e = (base A.cbi (i + d) + q, b.get c q) := by
  simp only [mirror, List.mem_flatMap, List.mem_range] at he
  obtain ⟨d, hd, he⟩ := he
  cases hb : A.blk i (i + d) with
  | none => rw [hb] at he; simp at he
  | some b =>
    rw [hb] at he
    simp only [List.mem_map, List.mem_range] at he
    obtain ⟨k, hk, rfl⟩ := he
    by_cases h0 : d = 0
    · rw [if_pos h0] at hk ⊢
      exact ⟨d, b, c + 1 + k, by omega, hb, by omega, fun _ => by omega, by rw [Nat.add_assoc]⟩
    · rw [if_neg h0] at hk ⊢
      exact ⟨d, b, 0 + k, by omega, hb, by omega, fun e => absurd e h0, by rw [Nat.add_assoc]⟩

theorem mirror_mem {A : SBM K} {i c d q : Nat} {b : Mat K} (hd : i + d < A.bcols.length)
    (hb : A.blk i (i + d) = some b) (hq : q < size A.cbi (i + d)) (h0 : d = 0 → c < q) :
    (base A.cbi (i + d) + q, b.get c q) ∈ mirror A i c := by
  simp only [mirror, List.mem_flatMap, List.mem_range]
  refine ⟨d, by omega, ?_⟩
  rw [hb]
  simp only [List.mem_map, List.mem_range]
  by_cases h : d = 0
  · have := h0 h
    rw [if_pos h]
    exact ⟨q - (c + 1), by omega, by rw [show c + 1 + (q - (c + 1)) = q by omega, Nat.add_assoc,
      show c + 1 + (q - (c + 1)) = q by omega]⟩
  · rw [if_neg h]
    exact ⟨q, by omega, by rw [Nat.zero_add, Nat.add_zero]⟩

theorem mirror_increasing {A : SBM K} (h : WF A) (i c : Nat) :
    (mirror A i c).Pairwise fun p q => p.1 < q.1 := by
  rw [mirror, List.pairwise_flatMap]
  constructor
  · intro d _
    cases A.blk i (i + d) with
    | none => exact List.Pairwise.nil
    | some b =>
      dsimp only
      rw [List.pairwise_map]
      exact List.pairwise_lt_range.imp fun hab => by simpa using hab
  · refine List.Pairwise.imp_of_mem ?_ List.pairwise_lt_range
    intro d d' hd hd' hlt x hx y hy
    rw [List.mem_range] at hd hd'
    cases hb : A.blk i (i + d) with
    | none => rw [hb] at hx; simp at hx
    | some b =>
      cases hb' : A.blk i (i + d') with
      | none => rw [hb'] at hy; simp at hy
      | some b' =>
        rw [hb] at hx
        rw [hb'] at hy
        simp only [List.mem_map, List.mem_range] at hx hy
        obtain ⟨k, hk, rfl⟩ := hx
        obtain ⟨l, hl, rfl⟩ := hy
        have hlen := h.length
        have h3 := base_mono h.cols (show i + d + 1 ≤ i + d' by omega) (by omega)
        rw [base_succ h.cols (by omega)] at h3
        dsimp only
        omega

/-- **C34** (full matrix of an upper triangle).  For a symmetric layout and blocks on and above the
diagonal only, `fillUpperTriangleCCS` writes the whole symmetric matrix. -/
theorem C34_fillUpperTriangleCCS [Zero K] (A : SBM K) (h : WF A) (hs : Square A) (hu : UpperOnly A)
    (M : Mat K) (hM : Denotes A M) :
    ∃ n s, A.fillUpperTriangleCCS = .ok (n, s) ∧ n = s.ci.length ∧ s.Lists (symm M) := by
  have hb1 : inBounds A true = true := inBounds_of h fun i c _ hc => elems_upper_le h hs hc
  have hb2 : mirrorInBounds A = true := by
    simp only [mirrorInBounds, List.all_eq_true, List.mem_range]
    intro i _ d _
    cases hb : A.blk i (i + d) with
    | none => rfl
    | some b =>
      simp only [decide_eq_true_eq]
      rw [(h.blk_fits hb).2.2.1, hs.1]
  have e : A.fillUpperTriangleCCS =
      .ok ((allCols A fun i c => entries A true i c ++ mirror A i c).flatten.length,
        CCS.ofCols (allCols A fun i c => entries A true i c ++ mirror A i c)) := by
    simp only [SBM.fillUpperTriangleCCS, hb1, hb2, Bool.true_eq_false, or_self, if_false,
      writeBlocks_eq, writeMirror_eq, ← List.foldl_append]
    rw [allCols_fold]
    obtain ⟨h1, h2⟩ := cols_fold_new (allCols A fun i c => entries A true i c ++ mirror A i c)
    rw [h2, h1]
  have hgt : ∀ i c, c < size A.cbi i → ∀ e ∈ mirror A i c, base A.cbi i + c < e.1 := by
    intro i c hc e he
    obtain ⟨d, b, q, hd, hb, hq, h0, rfl⟩ := mem_mirror he
    show _ < base A.cbi (i + d) + q
    by_cases hd0 : d = 0
    · have := h0 hd0
      rw [hd0, Nat.add_zero]; omega
    · have hlen := h.length
      have h3 := base_mono h.cols (show i + 1 ≤ i + d by omega) (by omega)
      rw [base_succ h.cols (by omega)] at h3
      omega
  refine ⟨_, _, e, by rw [ofCols_count], ?_⟩
  refine lists_of_cols h _ (symm M) hM.rows hM.cols ?_ ?_ ?_ ?_
  · intro i c _ hc
    rw [List.pairwise_append]
    refine ⟨entries_increasing h (elems_upper_le h hs hc), mirror_increasing h i c, ?_⟩
    intro x hx y hy
    have h1 := entries_upper_le h hs hu hc x hx
    have h2 := hgt i c hc y hy
    omega
  · intro i c hi hc x hx
    rcases List.mem_append.1 hx with hx | hx
    · exact entries_inside h (elems_upper_le h hs hc) x hx
    · obtain ⟨d, b, q, hd, hb, hq, h0, rfl⟩ := mem_mirror hx
      dsimp only
      rw [hs.1]
      exact base_add_lt h.cols (h.length ▸ hd) hq
  · intro i c hi hc x hx
    rcases List.mem_append.1 hx with hx | hx
    · rw [entries_value h hc hM (elems_upper_le h hs hc) x hx, symm]
      dsimp only
      rw [if_pos (entries_upper_le h hs hu hc x hx)]
    · have hlt := hgt i c hc x hx
      obtain ⟨d, b, q, hd, hb, hq, h0, rfl⟩ := mem_mirror hx
      dsimp only at hlt
      rw [symm]
      dsimp only
      rw [if_neg (by omega)]
      have hf := h.blk_fits hb
      have := hM.entry i (i + d) c q hf.2.1 hf.1 (by rw [hs.1]; exact hc) hq
      rw [hs.1] at this
      rw [this, val, hb]
  · intro i c r k hi hc hr hk hnot
    rw [List.map_append, List.mem_append, not_or] at hnot
    rw [symm]
    dsimp only
    split
    · rename_i hle
      rw [hM.entry r i k c hr hi hk hc, val, not_listed_upper h hs hi hr hk hc hle hnot.1]
    · rename_i hgt'
      have hir : i ≤ r := by
        by_contra hlt
        have h3 := base_mono h.rows (show r + 1 ≤ i by omega) (by rw [hs.1]; omega)
        rw [base_succ h.rows (by omega)] at h3
        rw [← hs.1] at hgt'
        omega
      have hM' := hM.entry i r c k (by rw [hs.1]; exact hi) (by rw [← hs.1]; exact hr)
        (by rw [hs.1]; exact hc) (by rw [← hs.1]; exact hk)
      have hsw : M.get (base A.cbi i + c) (base A.rbi r + k) =
          M.get (base A.rbi i + c) (base A.cbi r + k) := by rw [hs.1]
      rw [hsw, hM', val]
      cases hb : A.blk i r with
      | none => rfl
      | some b =>
        exfalso
        apply hnot.2
        have hm := mirror_mem (A := A) (i := i) (c := c) (d := r - i) (q := k) (b := b)
          (by rw [h.length, ← hs.1]; omega) (by rw [show i + (r - i) = r by omega]; exact hb)
          (by rw [show i + (r - i) = r by omega, ← hs.1]; exact hk) (by
            intro h0
            have : r = i := by omega
            rw [this, hs.1] at hgt'
            omega)
        rw [show i + (r - i) = r by omega] at hm
        refine List.mem_map.2 ⟨_, hm, ?_⟩
        rw [hs.1]

/-- **C34** (block structure).  `fillBlockStructure` lists, for each block column, the block rows of
the stored blocks on and above the diagonal, in increasing order. -/
theorem C34_blockStructure (A : SBM K) (h : WF A) :
    A.fillBlockStructure.Valid A.rbi.length A.cbi.length ∧
    ∀ c, c < A.cbi.length → ∀ r, r ∈ (A.fillBlockStructure.column c).map (·.1) ↔
      r ≤ c ∧ (A.blk r c).isSome = true := by
  have e : A.fillBlockStructure = CCS.ofCols ((List.range A.bcols.length).map fun i =>
      ((A.bcols.getD i []).filter fun p => p.1 ≤ i).map fun p => (p.1, ())) := by
    obtain ⟨_, h2⟩ := cols_fold_new ((List.range A.bcols.length).map fun i =>
      ((A.bcols.getD i []).filter fun p => p.1 ≤ i).map fun p => (p.1, ()))
    rw [← h2]
    simp only [SBM.fillBlockStructure, List.foldl_map, List.foldl_filter, decide_eq_true_eq]
  have hm : ∀ l ∈ (List.range A.bcols.length).map (fun i =>
      ((A.bcols.getD i []).filter fun p => p.1 ≤ i).map fun p => (p.1, ())), ∃ i,
      l = ((A.bcols.getD i []).filter fun p => p.1 ≤ i).map fun p => (p.1, ()) := by
    intro l hl
    obtain ⟨i, _, rfl⟩ := List.mem_map.1 hl
    exact ⟨i, rfl⟩
  rw [e]
  refine ⟨?_, ?_⟩
  · have := CCS.valid_ofCols ((List.range A.bcols.length).map fun i =>
      ((A.bcols.getD i []).filter fun p => p.1 ≤ i).map fun p => (p.1, ())) A.rbi.length (by
      intro l hl
      obtain ⟨i, rfl⟩ := hm l hl
      rw [List.pairwise_map]
      exact (h.sortedD i).filter _) (by
      intro l hl p hp
      obtain ⟨i, rfl⟩ := hm l hl
      obtain ⟨q, hq, rfl⟩ := List.mem_map.1 hp
      exact (h.fitsD i q (List.mem_filter.1 hq).1).2.1)
    rw [List.length_map, List.length_range] at this
    rw [← h.length]
    exact this
  · intro c hc r
    rw [CCS.column_ofCols _ c (by simp [h.length, hc])]
    simp only [List.getElem_map, List.getElem_range, List.map_map, List.mem_map, List.mem_filter,
      decide_eq_true_eq, Function.comp_apply]
    constructor
    · rintro ⟨p, ⟨hp, hle⟩, rfl⟩
      exact ⟨hle, by rw [SBM.blk, mapFind_of_mem (h.sortedD c) hp]; rfl⟩
    · rintro ⟨hle, hs⟩
      obtain ⟨J, hJ⟩ := Option.isSome_iff_exists.1 hs
      exact ⟨(r, J), ⟨mem_of_mapFind hJ, hle⟩, rfl⟩

/-! ## Concrete cases -/

/-- Layout 2+1 with the blocks (0,0), (0,1) and (1,1). -/
def exU : SBM Int := (((SBM.new [2, 3] [2, 3]).modBlk 0 0 fun _ => Mat.ofRows 2 2 [[1, 2], [9, 3]]).modBlk
  0 1 fun _ => Mat.ofRows 2 1 [[4], [5]]).modBlk 1 1 fun _ => Mat.ofRows 1 1 [[6]]

example : WF exU :=
  (((new_wf (by simp [Mono]) (by simp [Mono])).modBlk (by decide) _ (fun _ _ _ => ⟨rfl, rfl⟩)).modBlk
    (by decide) _ (fun _ _ _ => ⟨rfl, rfl⟩)).modBlk (by decide) _ (fun _ _ _ => ⟨rfl, rfl⟩)

example : Square exU := by
  refine ⟨rfl, ?_⟩
  intro k hk
  change k < 2 at hk
  have : k = 0 ∨ k = 1 := by omega
  rcases this with rfl | rfl <;> decide +kernel

example : (exU.fillCCS true).okAnd (fun x => x.1 = 6 ∧ x.2.cp = [0, 1, 3, 6] ∧
    x.2.ci = [0, 0, 1, 0, 1, 2] ∧ x.2.cx = [1, 2, 3, 4, 5, 6]) = true := by decide +kernel

example : exU.fillUpperTriangleCCS.okAnd (fun x => x.1 = 9 ∧ x.2.cp = [0, 3, 6, 9] ∧
    x.2.ci = [0, 1, 2, 0, 1, 2, 0, 1, 2] ∧ x.2.cx = [1, 2, 4, 2, 3, 5, 4, 5, 6]) = true := by
  decide +kernel

end Kalibr.Sparse
