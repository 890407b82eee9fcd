import Verif.Cov.Spec
import Verif.Tactics
import Mathlib.LinearAlgebra.Matrix.Block
import Mathlib.LinearAlgebra.Matrix.NonsingularInverse
import Mathlib.Tactic.LinearCombination
import Mathlib.Data.List.GetD

/-!
# The inverse of a matrix from its Cholesky factor

The entries of the inverse satisfy the recursion of `computeEntry`.
-/

namespace Kalibr.Cov

open Sparse Finset

variable {K : Type} [Field K] {n : Nat} {Lp Li : List Nat} {Lx : List K}

/-- The part of a column below the diagonal. -/
def tail (Lp : List Nat) (r : Nat) : List Nat :=
  List.range' (Lp.getD r 0 + 1) (Lp.getD (r + 1) 0 - (Lp.getD r 0 + 1))

theorem inCol_eq (h : Lower n Lp Li Lx) {r : Nat} (hr : r < n) : inCol Lp r = Lp.getD r 0 :: tail Lp r := by
  have := h.nonempty r hr
  rw [inCol, tail]
  obtain ⟨m, hm⟩ : ∃ m, Lp.getD (r + 1) 0 = Lp.getD r 0 + (m + 1) := ⟨Lp.getD (r + 1) 0 - Lp.getD r 0 - 1, by omega⟩
  rw [hm, Nat.add_sub_cancel_left, show Lp.getD r 0 + (m + 1) - (Lp.getD r 0 + 1) = m by omega,
    List.range'_succ]

theorem mem_tail (h : Lower n Lp Li Lx) {r j : Nat} (hr : r < n) (hj : j ∈ tail Lp r) :
    r < Li.getD j 0 ∧ Li.getD j 0 < n ∧ j < Li.length := by
  rw [tail, List.mem_range'] at hj
  obtain ⟨i, hi, rfl⟩ := hj
  have h1 := h.inside r hr
  have := h.below r (Lp.getD r 0 + 1 + 1 * i) hr (by omega) (by omega)
  exact ⟨this.1, this.2, by omega⟩

/-- The sum over the part of a column below the diagonal. -/
def below (Lp Li : List Nat) (Lx : List K) (r : Nat) (f : Nat → K) : K :=
  ((tail Lp r).map fun j => f (Li.getD j 0) * Lx.getD j 0).sum

theorem dense_eq (h : Lower n Lp Li Lx) {r : Nat} (hr : r < n) (i : Nat) :
    dense Lp Li Lx i r = (if i = r then Lx.getD (Lp.getD r 0) 0 else 0)
      + ((tail Lp r).map fun j => if Li.getD j 0 = i then Lx.getD j 0 else 0).sum := by
  rw [dense, inCol_eq h hr, List.map_cons, List.sum_cons, h.first r hr]
  simp only [eq_comm]

theorem tail_zero (h : Lower n Lp Li Lx) {r : Nat} (hr : r < n) {i : Nat} (hi : i ≤ r) :
    ((tail Lp r).map fun j => if Li.getD j 0 = i then Lx.getD j 0 else 0).sum = 0 := by
  apply List.sum_eq_zero
  intro x hx
  obtain ⟨j, hj, rfl⟩ := List.mem_map.1 hx
  have := (mem_tail h hr hj).1
  rw [if_neg (by omega)]

theorem dense_upper (h : Lower n Lp Li Lx) {r i : Nat} (hr : r < n) (hi : i < r) : dense Lp Li Lx i r = 0 := by
  rw [dense_eq h hr, tail_zero h hr hi.le, if_neg (by omega), add_zero]

theorem dense_diag (h : Lower n Lp Li Lx) {r : Nat} (hr : r < n) :
    dense Lp Li Lx r r = Lx.getD (Lp.getD r 0) 0 := by
  rw [dense_eq h hr, tail_zero h hr le_rfl, if_pos rfl, add_zero]

theorem sum_pick (l : List Nat) (g : Nat → Nat) (x f : Nat → K) (hl : ∀ j ∈ l, g j < n) :
    ∑ k ∈ range n, (l.map fun j => if g j = k then x j else 0).sum * f k = (l.map fun j => f (g j) * x j).sum := by
  induction l with
  | nil => simp
  | cons j l ih =>
    simp only [List.map_cons, List.sum_cons, add_mul, sum_add_distrib]
    rw [ih fun j hj => hl j (by simp [hj])]
    congr 1
    rw [sum_eq_single (g j)]
    · rw [if_pos rfl, mul_comm]
    · intro b _ hb; rw [if_neg (fun e => hb e.symm), zero_mul]
    · intro hb; exact absurd (mem_range.2 (hl j (by simp))) hb

/-- A column of the factor times a vector. -/
theorem col_mul (h : Lower n Lp Li Lx) {r : Nat} (hr : r < n) (f : Nat → K) :
    ∑ k ∈ range n, dense Lp Li Lx k r * f k = Lx.getD (Lp.getD r 0) 0 * f r + below Lp Li Lx r f := by
  simp only [dense_eq h hr, add_mul, sum_add_distrib]
  rw [sum_pick _ (fun j => Li.getD j 0) (fun j => Lx.getD j 0) f fun j hj => (mem_tail h hr hj).2.1, below]
  congr 1
  rw [sum_eq_single r]
  · rw [if_pos rfl]
  · intro b _ hb; rw [if_neg hb, zero_mul]
  · intro hb; exact absurd (mem_range.2 hr) hb

/-- A matrix on the first `n` indices. -/
def toMatrix (n : Nat) (A : Nat → Nat → K) : Matrix (Fin n) (Fin n) K := fun i j => A i j

/-- The inverse of the product of the factor and its transpose. -/
theorem inverse_exists (h : Lower n Lp Li Lx) : ∃ Z : Nat → Nat → K,
    (∀ r c, Z r c = Z c r) ∧
    IsInverse n (fun i j => ∑ k ∈ range n, dense Lp Li Lx i k * dense Lp Li Lx j k) Z ∧
    ∀ r c, r ≤ c → c < n →
      Z r c = if r = c then
        (1 / Lx.getD (Lp.getD r 0) 0) * (1 / Lx.getD (Lp.getD r 0) 0 - below Lp Li Lx r fun k => Z k c)
      else -(below Lp Li Lx r fun k => Z k c) * (1 / Lx.getD (Lp.getD r 0) 0) := by
  obtain ⟨L, hL⟩ : ∃ L, L = toMatrix n (dense Lp Li Lx) := ⟨_, rfl⟩
  have hLe : ∀ i j : Fin n, L i j = dense Lp Li Lx i j := fun i j => by rw [hL]; rfl
  have hup : ∀ i j : Fin n, i < j → L i j = 0 := fun i j hij => by
    rw [hLe]; exact dense_upper h j.2 hij
  have hdi : ∀ i : Fin n, L i i ≠ 0 := fun i => by
    rw [hLe, dense_diag h i.2]; exact h.nonzero i i.2
  have hlow : Matrix.BlockTriangular L OrderDual.toDual := fun i j hij => hup i j hij
  have hdet : IsUnit L.det := by
    rw [Matrix.det_of_lowerTriangular L hlow, isUnit_iff_ne_zero, prod_ne_zero_iff]
    exact fun i _ => hdi i
  have hdetT : IsUnit (L.transpose).det := by rwa [Matrix.det_transpose]
  let _ : Invertible L := Matrix.invertibleOfIsUnitDet L hdet
  have hinvlow := Matrix.blockTriangular_inv_of_blockTriangular hlow
  obtain ⟨W, hW⟩ : ∃ W, W = (L * L.transpose)⁻¹ := ⟨_, rfl⟩
  have hdetP : IsUnit (L * L.transpose).det := by rw [Matrix.det_mul]; exact hdet.mul hdetT
  have hWs : W.transpose = W := by
    rw [hW, Matrix.transpose_nonsing_inv, Matrix.transpose_mul, Matrix.transpose_transpose]
  have hX : L.transpose * W = L⁻¹ := by
    rw [hW, Matrix.mul_inv_rev, ← Matrix.mul_assoc, Matrix.mul_nonsing_inv _ hdetT, Matrix.one_mul]
  have hXd : ∀ r : Fin n, L r r * L⁻¹ r r = 1 := by
    intro r
    have e : (L * L⁻¹) r r = 1 := by rw [Matrix.mul_nonsing_inv _ hdet, Matrix.one_apply_eq]
    rw [Matrix.mul_apply, sum_eq_single r] at e
    · exact e
    · intro b _ hb
      rcases lt_or_gt_of_ne hb with hb | hb
      · have : L⁻¹ b r = 0 := hinvlow (show OrderDual.toDual r < OrderDual.toDual b from hb)
        rw [this, mul_zero]
      · rw [hup r b hb, zero_mul]
    · intro hb; exact absurd (mem_univ r) hb
  obtain ⟨Z, hZ⟩ : ∃ Z : Nat → Nat → K, Z = fun i j => if hij : i < n ∧ j < n then W ⟨i, hij.1⟩ ⟨j, hij.2⟩ else 0 :=
    ⟨_, rfl⟩
  have hZe : ∀ i j : Fin n, Z i j = W i j := by
    intro i j; rw [hZ]; simp only [i.2, j.2, and_self, dif_pos]
  have hZs : ∀ r c, Z r c = Z c r := by
    intro r c
    by_cases hrc : r < n ∧ c < n
    · rw [hZe ⟨r, hrc.1⟩ ⟨c, hrc.2⟩, hZe ⟨c, hrc.2⟩ ⟨r, hrc.1⟩]
      exact (congrFun (congrFun hWs ⟨c, hrc.2⟩) ⟨r, hrc.1⟩)
    · rw [hZ]; simp only [dif_neg hrc, dif_neg (fun e : c < n ∧ r < n => hrc ⟨e.2, e.1⟩)]
  refine ⟨Z, hZs, ?_, ?_⟩
  · have hA : ∀ i j : Fin n, (∑ k ∈ range n, dense Lp Li Lx i k * dense Lp Li Lx j k) = (L * L.transpose) i j := by
      intro i j
      rw [Matrix.mul_apply, ← Fin.sum_univ_eq_sum_range (fun k => dense Lp Li Lx i k * dense Lp Li Lx j k)]
      exact sum_congr rfl fun k _ => by rw [Matrix.transpose_apply, hLe, hLe]
    intro i j hi hj
    constructor
    · have e : ((L * L.transpose) * W) ⟨i, hi⟩ ⟨j, hj⟩ = if i = j then 1 else 0 := by
        rw [hW, Matrix.mul_nonsing_inv _ hdetP, Matrix.one_apply]; simp only [Fin.mk.injEq]
      rw [← e, Matrix.mul_apply, ← Fin.sum_univ_eq_sum_range (fun k =>
        (∑ l ∈ range n, dense Lp Li Lx i l * dense Lp Li Lx k l) * Z k j)]
      exact sum_congr rfl fun k _ => by rw [hA ⟨i, hi⟩ k, hZe k ⟨j, hj⟩]
    · have e : (W * (L * L.transpose)) ⟨i, hi⟩ ⟨j, hj⟩ = if i = j then 1 else 0 := by
        rw [hW, Matrix.nonsing_inv_mul _ hdetP, Matrix.one_apply]; simp only [Fin.mk.injEq]
      rw [← e, Matrix.mul_apply, ← Fin.sum_univ_eq_sum_range (fun k =>
        Z i k * (∑ l ∈ range n, dense Lp Li Lx k l * dense Lp Li Lx j l))]
      exact sum_congr rfl fun k _ => by rw [hA k ⟨j, hj⟩, hZe ⟨i, hi⟩ k]
  · intro r c hrc hc
    have hr : r < n := by omega
    have e : ∑ k ∈ range n, dense Lp Li Lx k r * Z k c = L⁻¹ ⟨r, hr⟩ ⟨c, hc⟩ := by
      rw [← hX, Matrix.mul_apply, ← Fin.sum_univ_eq_sum_range (fun k => dense Lp Li Lx k r * Z k c)]
      exact sum_congr rfl fun k _ => by rw [Matrix.transpose_apply, hLe k ⟨r, hr⟩, hZe k ⟨c, hc⟩]
    rw [col_mul h hr] at e
    have hd := h.nonzero r hr
    obtain ⟨d, hdd⟩ : ∃ d, d = Lx.getD (Lp.getD r 0) 0 := ⟨_, rfl⟩
    obtain ⟨s, hs⟩ : ∃ s, s = below Lp Li Lx r fun k => Z k c := ⟨_, rfl⟩
    rw [← hdd, ← hs] at e
    rw [← hdd] at hd
    rw [← hdd, ← hs]
    by_cases hrc' : r = c
    · subst hrc'
      have e2 := hXd ⟨r, hr⟩
      rw [hLe ⟨r, hr⟩ ⟨r, hr⟩, dense_diag h hr, ← hdd] at e2
      rw [if_pos rfl]
      have e3 : L⁻¹ ⟨r, hr⟩ ⟨r, hr⟩ = 1 / d := by field_simp; linear_combination e2
      rw [← e3, ← e]
      rw [← e] at e2
      field_simp
      linear_combination (-(Z r r)) * e2
    · rw [if_neg hrc']
      have : L⁻¹ ⟨r, hr⟩ ⟨c, hc⟩ = 0 :=
        hinvlow (show OrderDual.toDual (⟨c, hc⟩ : Fin n) < OrderDual.toDual ⟨r, hr⟩ from by
          show r < c; omega)
      rw [this] at e
      field_simp
      linear_combination e

end Kalibr.Cov
