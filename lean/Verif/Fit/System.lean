import Verif.Fit.Unique
import Verif.Fit.Spec

/-! Lemmas on the linear systems: rows of the matrices, normal equations, nonsingular systems. -/

namespace Kalibr.Fit

open BSpline Finset

variable {K : Type} [Field K] [LinearOrder K] [IsStrictOrderedRing K] {D : Nat} {s : Spline K D}

/-- The block row has the block structure of `Phi` with the weights `w`. -/
def HasWeights (k : Nat) (r : Row K D) (w : Nat → K) : Prop :=
  ∀ j, j < k → ∀ e : Fin D, ∀ e' : Fin D, r.P e (j * D + e') = if e' = e then w j else 0

theorem phi_weights {k st : Nat} {w : Nat → K} {rhs : Fin D → K} :
    HasWeights k ⟨st, fun r c => if c % D = r ∧ c / D < k then w (c / D) else 0, rhs⟩ w := by
  intro j hj e e'
  simp only [Motion.mod_lin e'.2, Motion.div_lin e'.2, hj, and_true, Fin.val_inj]

/-- One equation of the system. -/
theorem denseA_row {k C r st : Nat} {rows : List (Row K D)} {R : Row K D} {w : Nat → K}
    (hr : rows[r]? = some R) (hst : R.start = st) (hw : HasWeights k R w) (hC : st + k ≤ C) (e : Fin D)
    (x : Nat → K) :
    ∑ m ∈ range (C * D), denseA k rows (r * D + e) m * x m =
      ∑ c ∈ range k, w c * x ((st + c) * D + e) := by
  rw [Motion.sum_range_mul]
  have h1 : ∀ j ∈ range C, ∑ e' ∈ range D, denseA k rows (r * D + e) (j * D + e') * x (j * D + e') =
      if st ≤ j ∧ j < st + k then w (j - st) * x (j * D + e) else 0 := by
    intro j _
    rw [sum_eq_single (e : Nat)]
    · unfold denseA
      rw [Motion.div_lin e.2, hr, Motion.mod_lin e.2]
      simp only [hst]
      by_cases hj : st ≤ j ∧ j < st + k
      · have a1 : st * D ≤ j * D := Nat.mul_le_mul_right _ hj.1
        have a2 : (j + 1) * D ≤ (st + k) * D := Nat.mul_le_mul_right _ hj.2
        rw [Nat.succ_mul] at a2
        have := e.2
        rw [if_pos ⟨by omega, by omega⟩, if_pos hj,
          show j * D + (e : Nat) - st * D = (j - st) * D + e by rw [Nat.sub_mul]; omega,
          hw (j - st) (by omega) e e, if_pos rfl]
      · rw [if_neg hj, if_neg, zero_mul]
        rintro ⟨b1, b2⟩
        apply hj
        constructor
        · by_contra hlt
          have := Nat.mul_le_mul_right D (show j + 1 ≤ st by omega)
          rw [Nat.succ_mul] at this
          have := e.2
          omega
        · by_contra hge
          have := Nat.mul_le_mul_right D (show st + k ≤ j by omega)
          omega
    · intro e' he' hne
      have he' : e' < D := by simpa using he'
      unfold denseA
      rw [Motion.div_lin e.2, hr, Motion.mod_lin e.2]
      simp only [hst]
      split
      · rename_i hh
        obtain ⟨b1, b2⟩ := hh
        have hj1 : st ≤ j := by
          by_contra hlt
          have := Nat.mul_le_mul_right D (show j + 1 ≤ st by omega)
          rw [Nat.succ_mul] at this
          omega
        have hj2 : j < st + k := by
          by_contra hge
          have := Nat.mul_le_mul_right D (show st + k ≤ j by omega)
          omega
        have a1 : st * D ≤ j * D := Nat.mul_le_mul_right _ hj1
        rw [show j * D + e' - st * D = (j - st) * D + e' by rw [Nat.sub_mul]; omega]
        have := hw (j - st) (by omega) e ⟨e', he'⟩
        simp only at this
        rw [this, if_neg (fun h => hne (congrArg Fin.val h)), zero_mul]
      · rw [zero_mul]
    · intro h
      exact absurd (mem_range.2 e.2) h
  rw [sum_congr rfl h1, window_sum (fun j => if st ≤ j ∧ j < st + k then w (j - st) * x (j * D + e) else 0) C k st hC]
  · apply sum_congr rfl
    intro c hc
    have hc : c < k := by simpa using hc
    rw [if_pos ⟨by omega, by omega⟩, Nat.add_sub_cancel_left]
  · intro j _ hj
    rw [if_neg (by omega)]

theorem denseB_row {r : Nat} {rows : List (Row K D)} {R : Row K D} (hr : rows[r]? = some R) (e : Fin D) :
    denseB rows (r * D + e) = R.rhs e := by
  unfold denseB
  rw [Motion.div_lin e.2, hr]
  simp only [Motion.mod_lin e.2]
  rw [dif_pos e.2]

/-- An index below `n * D` is a block and an entry. -/
theorem index_split {n i : Nat} (hi : i < n * D) : ∃ m, m < n ∧ ∃ e : Fin D, i = m * D + e := by
  have hD : 0 < D := by
    rcases Nat.eq_zero_or_pos D with h0 | h0
    · subst h0; simp at hi
    · exact h0
  refine ⟨i / D, Nat.div_lt_of_lt_mul (by rwa [Nat.mul_comm]), ⟨i % D, Nat.mod_lt _ hD⟩, ?_⟩
  rw [Nat.mul_comm, Nat.div_add_mod]

/-- The normal matrix applied to a vector. -/
theorem gram_mul (n m : Nat) (A : Nat → Nat → K) (x : Nat → K) (i : Nat) :
    ∑ j ∈ range m, gram n A i j * x j = ∑ a ∈ range n, A a i * ∑ j ∈ range m, A a j * x j := by
  unfold gram
  simp only [sum_mul, mul_sum]
  rw [sum_comm]
  exact sum_congr rfl fun a _ => sum_congr rfl fun j _ => by ring

/-- The quadratic form of the normal matrix is the squared norm of the image. -/
theorem gram_quad (n m : Nat) (A : Nat → Nat → K) (x : Nat → K) :
    ∑ i ∈ range m, x i * ∑ j ∈ range m, gram n A i j * x j =
      ∑ a ∈ range n, (∑ j ∈ range m, A a j * x j) ^ 2 := by
  have : ∀ i ∈ range m, x i * ∑ j ∈ range m, gram n A i j * x j =
      ∑ a ∈ range n, x i * (A a i * ∑ j ∈ range m, A a j * x j) := by
    intro i _
    rw [gram_mul, mul_sum]
  rw [sum_congr rfl this, sum_comm]
  apply sum_congr rfl
  intro a _
  rw [sq, sum_mul]
  exact sum_congr rfl fun i _ => by ring

/-- The normal matrix of an injective matrix is nonsingular. -/
theorem gram_nonsingular {n m : Nat} {A : Nat → Nat → K}
    (h : ∀ x : Nat → K, (∀ a, a < n → ∑ j ∈ range m, A a j * x j = 0) → ∀ j, j < m → x j = 0) :
    Nonsingular m (gram n A) := by
  intro x hx
  apply h x
  have h0 : ∑ a ∈ range n, (∑ j ∈ range m, A a j * x j) ^ 2 = 0 := by
    rw [← gram_quad]
    apply sum_eq_zero
    intro i hi
    rw [hx i (by simpa using hi), mul_zero]
  rw [sum_eq_zero_iff_of_nonneg (fun _ _ => sq_nonneg _)] at h0
  intro a ha
  exact pow_eq_zero_iff (two_ne_zero) |>.1 (h0 a (by simpa using ha))

/-- Two solutions of a nonsingular system agree. -/
theorem Nonsingular.unique {n : Nat} {A : Nat → Nat → K} (h : Nonsingular n A) {x y b : Nat → K}
    (hx : Solves n A x b) (hy : Solves n A y b) : ∀ j, j < n → x j = y j := by
  have := h (fun j => x j - y j) (by
    intro i hi
    simp only [mul_sub, sum_sub_distrib]
    rw [hx i hi, hy i hi, sub_self])
  intro j hj
  exact sub_eq_zero.1 (this j hj)

end Kalibr.Fit
