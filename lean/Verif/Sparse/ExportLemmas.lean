import Verif.Sparse.Lemmas
import Verif.Sparse.ExportModel

namespace Kalibr.Sparse

set_option linter.unusedSectionVars false

variable {K : Type}

/-! ## The writer -/

theorem put_fold (E : List (Nat × K)) (w : Writer K) :
    E.foldl (fun w e => w.put e.1 e.2) w =
      ⟨w.cp, w.ci ++ E.map (·.1), w.cx ++ E.map (·.2), w.nz + E.length⟩ := by
  induction E generalizing w with
  | nil => simp
  | cons e E ih => rw [List.foldl_cons, ih]; simp [Writer.put]; omega

theorem cols_fold (C : List (List (Nat × K))) (w : Writer K) :
    let w' := C.foldl (fun w l => l.foldl (fun w e => w.put e.1 e.2) w.startCol) w
    w'.cp ++ [w'.nz] = w.cp ++ CCS.cps w.nz C ∧ w'.ci = w.ci ++ C.flatten.map (·.1) ∧
      w'.cx = w.cx ++ C.flatten.map (·.2) ∧ w'.nz = w.nz + C.flatten.length := by
  dsimp only
  induction C generalizing w with
  | nil => simp [CCS.cps]
  | cons l C ih =>
    obtain ⟨h1, h2, h3, h4⟩ := ih (l.foldl (fun w e => w.put e.1 e.2) w.startCol)
    rw [List.foldl_cons, h1, h2, h3, h4, put_fold]
    refine ⟨?_, ?_, ?_, ?_⟩
    · simp [Writer.startCol, CCS.cps]
    · simp [Writer.startCol]
    · simp [Writer.startCol]
    · simp only [Writer.startCol, List.flatten_cons, List.length_append]; omega

/-- The arrays of a list of columns come out of the column loops. -/
theorem cols_fold_new (C : List (List (Nat × K))) :
    let w := C.foldl (fun w l => l.foldl (fun w e => w.put e.1 e.2) w.startCol)
      (⟨[], [], [], 0⟩ : Writer K)
    w.nz = C.flatten.length ∧ (⟨w.cp ++ [w.nz], w.ci, w.cx⟩ : CCS K) = CCS.ofCols C := by
  obtain ⟨h1, h2, h3, h4⟩ := cols_fold C ⟨[], [], [], 0⟩
  dsimp only at h1 h2 h3 h4 ⊢
  refine ⟨by rw [h4]; simp, ?_⟩
  rw [h1, h2, h3]
  simp [CCS.ofCols]

/-- What a column of the export holds. -/
def entries (A : SBM K) (upper : Bool) (i c : Nat) : List (Nat × K) :=
  (A.bcols.getD i []).flatMap fun p =>
    (List.range (elems A upper i c p)).map fun k => (base A.rbi p.1 + k, p.2.get k c)

theorem writeBlocks_eq (A : SBM K) (upper : Bool) (i c : Nat) (w : Writer K) :
    writeBlocks A upper i c w = (entries A upper i c).foldl (fun w e => w.put e.1 e.2) w := by
  rw [writeBlocks, entries, List.foldl_flatMap]
  simp only [List.foldl_map]

/-- The mirrored part of a column. -/
def mirror (A : SBM K) (i c : Nat) : List (Nat × K) :=
  (List.range (A.bcols.length - i)).flatMap fun d =>
    match A.blk i (i + d) with
    | none => []
    | some b =>
      let start := if d = 0 then c + 1 else 0
      (List.range (size A.cbi (i + d) - start)).map fun k =>
        (base A.cbi (i + d) + start + k, b.get c (start + k))

theorem writeMirror_eq (A : SBM K) (i c : Nat) (w : Writer K) :
    writeMirror A i c w = (mirror A i c).foldl (fun w e => w.put e.1 e.2) w := by
  rw [writeMirror, mirror, List.foldl_flatMap]
  congr 1
  funext w d
  cases A.blk i (i + d) with
  | none => rfl
  | some b => simp only [List.foldl_map]

/-- All columns, given those of each block column. -/
def allCols (A : SBM K) (F : Nat → Nat → List (Nat × K)) : List (List (Nat × K)) :=
  (List.range A.bcols.length).flatMap fun i => (List.range (size A.cbi i)).map fun c => F i c

theorem allCols_fold (A : SBM K) (F : Nat → Nat → List (Nat × K)) (w : Writer K) :
    (List.range A.bcols.length).foldl (fun w i =>
      (List.range (size A.cbi i)).foldl (fun w c =>
        (F i c).foldl (fun w e => w.put e.1 e.2) (Writer.startCol w)) w) w =
    (allCols A F).foldl (fun w l => l.foldl (fun w e => w.put e.1 e.2) w.startCol) w := by
  rw [allCols, List.foldl_flatMap]
  simp only [List.foldl_map]

/-- Looking up a column. -/
theorem range_flatMap {α : Type} {bi : List Nat} (h : Mono bi) (F : Nat → List α) (n : Nat)
    (hn : n ≤ bi.length) (hF : ∀ i, i < n → (F i).length = size bi i) :
    ((List.range n).flatMap F).length = base bi n ∧
    ∀ i c, i < n → c < size bi i → ((List.range n).flatMap F)[base bi i + c]? = (F i)[c]? := by
  induction n with
  | zero => exact ⟨by simp [base], fun i c hi => absurd hi (Nat.not_lt_zero _)⟩
  | succ n ih =>
    obtain ⟨h1, h2⟩ := ih (by omega) (fun i hi => hF i (by omega))
    rw [List.range_succ, List.flatMap_append, List.flatMap_singleton]
    refine ⟨?_, ?_⟩
    · rw [List.length_append, h1, hF n (by omega), base_succ h (by omega)]
    · intro i c hi hc
      by_cases hin : i = n
      · subst hin
        rw [List.getElem?_append_right (by omega), h1]
        congr 1; omega
      · have hlt : base bi i + c < base bi n := by
          have := base_mono h (show i + 1 ≤ n by omega) (by omega)
          rw [base_succ h (by omega)] at this
          omega
        rw [List.getElem?_append_left (by omega), h2 i c (by omega) hc]

theorem allCols_length {A : SBM K} (h : WF A) (F : Nat → Nat → List (Nat × K)) :
    (allCols A F).length = total A.cbi := by
  rw [allCols, (range_flatMap h.cols _ _ (by rw [h.length]) (by simp)).1, h.length, total_eq]

theorem allCols_get {A : SBM K} (h : WF A) (F : Nat → Nat → List (Nat × K)) {i c : Nat}
    (hi : i < A.cbi.length) (hc : c < size A.cbi i) :
    (allCols A F)[base A.cbi i + c]? = some (F i c) := by
  rw [allCols, (range_flatMap h.cols _ _ (by rw [h.length]) (by simp)).2 i c (h.length ▸ hi) hc]
  simp [hc]

theorem mem_allCols {A : SBM K} (h : WF A) {F : Nat → Nat → List (Nat × K)} {l : List (Nat × K)}
    (hl : l ∈ allCols A F) : ∃ i c, i < A.cbi.length ∧ c < size A.cbi i ∧ l = F i c := by
  simp only [allCols, List.mem_flatMap, List.mem_map, List.mem_range] at hl
  obtain ⟨i, hi, c, hc, rfl⟩ := hl
  exact ⟨i, c, h.length ▸ hi, hc, rfl⟩

/-- The export lists `M` if each column holds what it should. -/
theorem lists_of_cols [Zero K] {A : SBM K} (h : WF A) (F : Nat → Nat → List (Nat × K)) (M : Mat K)
    (hr : M.rows = total A.rbi) (hc : M.cols = total A.cbi)
    (h1 : ∀ i c, i < A.cbi.length → c < size A.cbi i → (F i c).Pairwise fun p q => p.1 < q.1)
    (h2 : ∀ i c, i < A.cbi.length → c < size A.cbi i → ∀ p ∈ F i c, p.1 < total A.rbi)
    (h3 : ∀ i c, i < A.cbi.length → c < size A.cbi i → ∀ p ∈ F i c,
      p.2 = M.get p.1 (base A.cbi i + c))
    (h4 : ∀ i c r k, i < A.cbi.length → c < size A.cbi i → r < A.rbi.length → k < size A.rbi r →
      base A.rbi r + k ∉ (F i c).map (·.1) → M.get (base A.rbi r + k) (base A.cbi i + c) = 0) :
    (CCS.ofCols (allCols A F)).Lists M := by
  have hcol : ∀ j, j < M.cols → ∃ i c, i < A.cbi.length ∧ c < size A.cbi i ∧ j = base A.cbi i + c ∧
      (CCS.ofCols (allCols A F)).column j = F i c := by
    intro j hj
    rw [hc] at hj
    obtain ⟨i, c, hi, hcc, rfl⟩ := block_exists h.cols hj
    refine ⟨i, c, hi, hcc, rfl, ?_⟩
    rw [CCS.column_ofCols _ _ (by rw [allCols_length h]; exact hj)]
    have := allCols_get h F hi hcc
    rw [List.getElem?_eq_some_iff] at this
    exact this.2
  refine ⟨?_, ?_, ?_⟩
  · have := CCS.valid_ofCols (allCols A F) M.rows (by
      intro l hl
      obtain ⟨i, c, hi, hcc, rfl⟩ := mem_allCols h hl
      exact h1 i c hi hcc) (by
      intro l hl p hp
      obtain ⟨i, c, hi, hcc, rfl⟩ := mem_allCols h hl
      rw [hr]; exact h2 i c hi hcc p hp)
    rwa [allCols_length h, ← hc] at this
  · intro j hj p hp
    obtain ⟨i, c, hi, hcc, rfl, e⟩ := hcol j hj
    rw [e] at hp
    exact h3 i c hi hcc p hp
  · intro n j hn hj hnot
    obtain ⟨i, c, hi, hcc, rfl, e⟩ := hcol j hj
    rw [e] at hnot
    rw [hr] at hn
    obtain ⟨r, k, hr', hk, rfl⟩ := block_exists h.rows hn
    exact h4 i c r k hi hcc hr' hk hnot

/-! ## The entries of a column -/

theorem mem_entries {A : SBM K} {upper : Bool} {i c : Nat} {e : Nat × K} :
    e ∈ entries A upper i c ↔ ∃ p ∈ A.bcols.getD i [], ∃ k, k < elems A upper i c p ∧
      e = (base A.rbi p.1 + k, p.2.get k c) := by
  simp only [entries, List.mem_flatMap, List.mem_map, List.mem_range]
  constructor
  · rintro ⟨p, hp, k, hk, rfl⟩; exact ⟨p, hp, k, hk, rfl⟩
  · rintro ⟨p, hp, k, hk, rfl⟩; exact ⟨p, hp, k, hk, rfl⟩

theorem entries_increasing {A : SBM K} (h : WF A) {upper : Bool} {i c : Nat}
    (hb : ∀ p ∈ A.bcols.getD i [], elems A upper i c p ≤ size A.rbi p.1) :
    (entries A upper i c).Pairwise fun p q => p.1 < q.1 := by
  rw [entries, List.pairwise_flatMap]
  constructor
  · intro p _
    rw [List.pairwise_map]
    exact List.pairwise_lt_range.imp fun hab => by simpa using hab
  · refine List.Pairwise.imp_of_mem ?_ (h.sortedD i)
    intro p q hp hq hlt x hx y hy
    simp only [List.mem_map, List.mem_range] at hx hy
    obtain ⟨k, hk, rfl⟩ := hx
    obtain ⟨l, _, rfl⟩ := hy
    have h1 := hb p hp
    have h2 := (h.fitsD i q hq).2.1
    have h3 := base_mono h.rows (show p.1 + 1 ≤ q.1 by omega) (by omega)
    rw [base_succ h.rows (by omega)] at h3
    show base A.rbi p.1 + k < base A.rbi q.1 + l
    omega

theorem entries_inside {A : SBM K} (h : WF A) {upper : Bool} {i c : Nat}
    (hb : ∀ p ∈ A.bcols.getD i [], elems A upper i c p ≤ size A.rbi p.1) :
    ∀ e ∈ entries A upper i c, e.1 < total A.rbi := by
  intro e he
  obtain ⟨p, hp, k, hk, rfl⟩ := mem_entries.1 he
  have := hb p hp
  exact base_add_lt h.rows (h.fitsD i p hp).2.1 (by omega)

theorem entries_value [Zero K] {A : SBM K} (h : WF A) {upper : Bool} {i c : Nat}
    (hc : c < size A.cbi i) {M : Mat K} (hM : Denotes A M)
    (hb : ∀ p ∈ A.bcols.getD i [], elems A upper i c p ≤ size A.rbi p.1) :
    ∀ e ∈ entries A upper i c, e.2 = M.get e.1 (base A.cbi i + c) := by
  intro e he
  obtain ⟨p, hp, k, hk, rfl⟩ := mem_entries.1 he
  have hf := h.fitsD i p hp
  have := hb p hp
  dsimp only
  rw [hM.entry p.1 i k c hf.2.1 hf.1 (by omega) hc, val, SBM.blk, mapFind_of_mem (h.sortedD i) hp]

theorem not_listed_full [Zero K] {A : SBM K} {i c r k : Nat}
    (h : WF A) (hk : k < size A.rbi r)
    (hnot : base A.rbi r + k ∉ (entries A false i c).map (·.1)) : A.blk r i = none := by
  cases hb : A.blk r i with
  | none => rfl
  | some J =>
    exfalso
    apply hnot
    have hf := h.blk_fits hb
    refine List.mem_map.2 ⟨(base A.rbi r + k, J.get k c), mem_entries.2
      ⟨(r, J), mem_of_mapFind hb, k, ?_, rfl⟩, rfl⟩
    simp only [elems, Bool.false_eq_true, false_and, if_false]
    rw [hf.2.2.1]; exact hk

end Kalibr.Sparse
