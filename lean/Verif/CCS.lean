import Verif.Common
import Verif.Mat

/-!
# Compressed column storage

The arrays used by CHOLMOD and friends: column pointers, row indices and values.  `Valid` says that the
arrays are a well-formed compressed-column matrix of the given size, and `Lists s M` that they hold
exactly the matrix `M`: every listed entry is the entry of `M` and everything not listed is zero.
-/

namespace Kalibr

/-- The three arrays. -/
structure CCS (K : Type) where
  cp : List Nat
  ci : List Nat
  cx : List K

namespace CCS

variable {K : Type}

/-- The (row, value) pairs of column `j`: positions `cp[j]` to `cp[j+1]`. -/
def column (s : CCS K) (j : Nat) : List (Nat × K) :=
  ((s.ci.zip s.cx).drop (s.cp.getD j 0)).take (s.cp.getD (j + 1) 0 - s.cp.getD j 0)

/-- Well formed: one pointer for each column and one more, starting at zero, never decreasing and ending
at the number of entries; rows strictly increasing in each column and inside the matrix. -/
structure Valid (s : CCS K) (rows cols : Nat) : Prop where
  cp_length : s.cp.length = cols + 1
  cp_first : s.cp.getD 0 0 = 0
  cp_mono : s.cp.Pairwise (· ≤ ·)
  cp_last : s.cp.getD cols 0 = s.ci.length
  cx_length : s.cx.length = s.ci.length
  increasing : ∀ j, j < cols → (s.column j).Pairwise fun p q => p.1 < q.1
  inside : ∀ j, j < cols → ∀ p ∈ s.column j, p.1 < rows

/-- The listed entries are those of `M` and what is not listed is zero. -/
structure Lists [Zero K] (s : CCS K) (M : Mat K) : Prop where
  valid : s.Valid M.rows M.cols
  value : ∀ j, j < M.cols → ∀ p ∈ s.column j, p.2 = M.get p.1 j
  rest : ∀ i j, i < M.rows → j < M.cols → i ∉ (s.column j).map (·.1) → M.get i j = 0

/-- Running pointers of a list of columns. -/
def cps {α : Type} : Nat → List (List α) → List Nat
  | n, [] => [n]
  | n, l :: ls => n :: cps (n + l.length) ls

/-- The arrays of a list of columns. -/
def ofCols (L : List (List (Nat × K))) : CCS K :=
  ⟨cps 0 L, L.flatten.map (·.1), L.flatten.map (·.2)⟩

theorem cps_length {α : Type} (n : Nat) (L : List (List α)) : (cps n L).length = L.length + 1 := by
  induction L generalizing n with
  | nil => rfl
  | cons l L ih => simp [cps, ih]

theorem cps_get {α : Type} (n : Nat) (L : List (List α)) (j : Nat) (hj : j ≤ L.length) :
    (cps n L).getD j 0 = n + (L.take j).flatten.length := by
  induction L generalizing n j with
  | nil => have : j = 0 := by simpa using hj
           subst this; simp [cps]
  | cons l L ih =>
    cases j with
    | zero => simp [cps]
    | succ j =>
      rw [cps, List.getD_cons_succ, ih _ _ (by simpa using hj), List.take_succ_cons, List.flatten_cons,
        List.length_append]
      omega

theorem cps_ge {α : Type} (n : Nat) (L : List (List α)) : ∀ x ∈ cps n L, n ≤ x := by
  induction L generalizing n with
  | nil => simp [cps]
  | cons l L ih =>
    intro x hx
    rcases List.mem_cons.1 hx with rfl | hx
    · exact le_rfl
    · exact le_trans (Nat.le_add_right _ _) (ih _ x hx)

theorem cps_mono {α : Type} (n : Nat) (L : List (List α)) : (cps n L).Pairwise (· ≤ ·) := by
  induction L generalizing n with
  | nil => simp [cps]
  | cons l L ih =>
    rw [cps, List.pairwise_cons]
    exact ⟨fun x hx => le_trans (Nat.le_add_right _ _) (cps_ge _ L x hx), ih _⟩

theorem zip_fst_snd {α β : Type} (l : List (α × β)) : (l.map (·.1)).zip (l.map (·.2)) = l := by
  induction l with
  | nil => rfl
  | cons p l ih => simp [ih]

theorem drop_take_flatten {α : Type} (L : List (List α)) (j : Nat) (hj : j < L.length) :
    (L.flatten.drop (L.take j).flatten.length).take (L[j]).length = L[j] := by
  have h1 : L = L.take j ++ L[j] :: L.drop (j + 1) := by simp
  have h2 : L.flatten = (L.take j).flatten ++ (L[j] ++ (L.drop (j + 1)).flatten) := by
    have := congrArg List.flatten h1
    rwa [List.flatten_append, List.flatten_cons] at this
  rw [h2, List.drop_left, List.take_left]

theorem column_ofCols (L : List (List (Nat × K))) (j : Nat) (hj : j < L.length) :
    (ofCols L).column j = L[j] := by
  have h1 := cps_get 0 L j (by omega)
  have h2 := cps_get 0 L (j + 1) (by omega)
  have h3 : (L.take (j + 1)).flatten.length = (L.take j).flatten.length + (L[j]).length := by
    rw [← List.take_concat_get' L j hj, List.flatten_append, List.length_append]
    simp only [List.flatten_cons, List.flatten_nil, List.append_nil]
  rw [column, ofCols]
  dsimp only
  rw [h1, h2, zip_fst_snd, h3, Nat.zero_add, Nat.zero_add, Nat.add_sub_cancel_left]
  exact drop_take_flatten L j hj

/-- A list of columns with strictly increasing rows inside the matrix is a well-formed matrix. -/
theorem valid_ofCols (L : List (List (Nat × K))) (rows : Nat)
    (h1 : ∀ l ∈ L, l.Pairwise fun p q => p.1 < q.1) (h2 : ∀ l ∈ L, ∀ p ∈ l, p.1 < rows) :
    (ofCols L).Valid rows L.length := by
  refine ⟨cps_length 0 L, ?_, cps_mono 0 L, ?_, by rw [ofCols, List.length_map, List.length_map], ?_, ?_⟩
  · show (cps 0 L).getD 0 0 = 0
    rw [cps_get 0 L 0 (by omega)]; simp
  · show (cps 0 L).getD L.length 0 = _
    rw [cps_get 0 L _ le_rfl, List.take_length, Nat.zero_add, ofCols, List.length_map]
  · intro j hj
    rw [column_ofCols L j hj]
    exact h1 _ (List.getElem_mem hj)
  · intro j hj p hp
    rw [column_ofCols L j hj] at hp
    exact h2 _ (List.getElem_mem hj) p hp

/-- Two matrices listed by the same arrays are the same. -/
theorem Lists.unique [Zero K] {s : CCS K} {M N : Mat K} (hM : s.Lists M) (hN : s.Lists N)
    (hr : M.rows = N.rows) (hc : M.cols = N.cols) : M.Same N := by
  refine ⟨hr, hc, ?_⟩
  intro i j hi hj
  by_cases h : i ∈ (s.column j).map (·.1)
  · obtain ⟨p, hp, rfl⟩ := List.mem_map.1 h
    rw [← hM.value j hj p hp, ← hN.value j (hc ▸ hj) p hp]
  · rw [hM.rest i j hi hj h, hN.rest i j (hr ▸ hi) (hc ▸ hj) h]

end CCS

end Kalibr
