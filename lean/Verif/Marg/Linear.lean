import Verif.Marg.Spec
import Verif.Tactics
import Mathlib.LinearAlgebra.Matrix.NonsingularInverse
import Mathlib.Tactic.LinearCombination

/-!
# The linear algebra of the marginalisation
-/

namespace Kalibr.Marg

open Finset

variable {K : Type} [Field K]

/-- An orthogonal matrix preserves sums of squares. -/
theorem orth_norm {m : Nat} {Q : Nat → Nat → K}
    (hQ : ∀ i k, i < m → k < m → ∑ l ∈ range m, Q l i * Q l k = if i = k then 1 else 0) (u : Nat → K) :
    ∑ i ∈ range m, (∑ p ∈ range m, Q p i * u p) * (∑ p ∈ range m, Q p i * u p) = ∑ p ∈ range m, u p * u p := by
  obtain ⟨A, hA⟩ : ∃ A : Matrix (Fin m) (Fin m) K, A = Matrix.of fun i j => Q i.1 j.1 := ⟨_, rfl⟩
  have h1 : A.transpose * A = 1 := by
    ext i k
    rw [Matrix.mul_apply, Matrix.one_apply]
    have := hQ i k i.2 k.2
    rw [← Fin.sum_univ_eq_sum_range (fun l => Q l i * Q l k)] at this
    simp only [Matrix.transpose_apply, hA, Fin.ext_iff, Matrix.of_apply]
    exact this
  have h2 : A * A.transpose = 1 := mul_eq_one_comm.1 h1
  have h3 : ∀ p q, p < m → q < m → ∑ i ∈ range m, Q p i * Q q i = if p = q then 1 else 0 := by
    intro p q hp hq
    have := congrFun (congrFun h2 ⟨p, hp⟩) ⟨q, hq⟩
    rw [Matrix.mul_apply, Matrix.one_apply] at this
    rw [← Fin.sum_univ_eq_sum_range (fun i => Q p i * Q q i)]
    simpa [Matrix.transpose_apply, hA, Fin.ext_iff] using this
  calc ∑ i ∈ range m, (∑ p ∈ range m, Q p i * u p) * (∑ p ∈ range m, Q p i * u p)
      = ∑ i ∈ range m, ∑ p ∈ range m, ∑ q ∈ range m, (Q p i * Q q i) * (u p * u q) := by
        refine sum_congr rfl fun i _ => ?_
        rw [sum_mul_sum]
        exact sum_congr rfl fun p _ => sum_congr rfl fun q _ => by ring
    _ = ∑ p ∈ range m, ∑ q ∈ range m, (∑ i ∈ range m, Q p i * Q q i) * (u p * u q) := by
        rw [sum_comm]
        refine sum_congr rfl fun p _ => ?_
        rw [sum_comm]
        exact sum_congr rfl fun q _ => by rw [sum_mul]
    _ = ∑ p ∈ range m, u p * u p := by
        refine sum_congr rfl fun p hp => ?_
        rw [sum_eq_single p]
        · rw [h3 p p (mem_range.1 hp) (mem_range.1 hp), if_pos rfl, one_mul]
        · intro q hq hne
          rw [h3 p q (mem_range.1 hp) (mem_range.1 hq), if_neg (fun e => hne e.symm), zero_mul]
        · intro h; exact absurd hp h

/-- `Qᵀ (J x - b) = R x - Qᵀ b`. -/
theorem rotate {m n : Nat} {Q J R : Nat → Nat → K}
    (hQ : ∀ i k, i < m → k < m → ∑ l ∈ range m, Q l i * Q l k = if i = k then 1 else 0)
    (hJ : ∀ p c, p < m → c < n → J p c = ∑ l ∈ range m, Q p l * R l c) (b x : Nat → K) {i : Nat} (hi : i < m) :
    ∑ p ∈ range m, Q p i * (∑ c ∈ range n, J p c * x c - b p) =
      ∑ c ∈ range n, R i c * x c - ∑ p ∈ range m, Q p i * b p := by
  have h1 : ∑ p ∈ range m, Q p i * ∑ c ∈ range n, J p c * x c = ∑ c ∈ range n, R i c * x c := by
    calc ∑ p ∈ range m, Q p i * ∑ c ∈ range n, J p c * x c
        = ∑ p ∈ range m, ∑ c ∈ range n, ∑ l ∈ range m, (Q p i * Q p l) * (R l c * x c) := by
          refine sum_congr rfl fun p hp => ?_
          rw [mul_sum]
          refine sum_congr rfl fun c hc => ?_
          rw [hJ p c (mem_range.1 hp) (mem_range.1 hc), sum_mul, mul_sum]
          exact sum_congr rfl fun l _ => by ring
      _ = ∑ c ∈ range n, ∑ l ∈ range m, (∑ p ∈ range m, Q p i * Q p l) * (R l c * x c) := by
          rw [sum_comm]
          refine sum_congr rfl fun c _ => ?_
          rw [sum_comm]
          exact sum_congr rfl fun l _ => by rw [sum_mul]
      _ = ∑ c ∈ range n, R i c * x c := by
          refine sum_congr rfl fun c _ => ?_
          rw [sum_eq_single i]
          · rw [hQ i i hi hi, if_pos rfl, one_mul]
          · intro l hl hne
            rw [hQ i l hi (mem_range.1 hl), if_neg (fun e => hne e.symm), zero_mul]
          · intro h; exact absurd (mem_range.2 hi) h
  simp only [mul_sub, sum_sub_distrib, h1]

/-- A square system in the first `a` unknowns that determines them has a solution. -/
theorem solve_top {a : Nat} (R : Nat → Nat → K)
    (hinj : ∀ y : Nat → K, (∀ i, i < a → ∑ c ∈ range a, R i c * y c = 0) → ∀ c, c < a → y c = 0) (t : Nat → K) :
    ∃ y : Nat → K, ∀ i, i < a → ∑ c ∈ range a, R i c * y c = t i := by
  obtain ⟨A, hA⟩ : ∃ A : Matrix (Fin a) (Fin a) K, A = Matrix.of fun i j => R i.1 j.1 := ⟨_, rfl⟩
  have hext : ∀ (z : Fin a → K) (i : Fin a),
      ∑ c ∈ range a, R i c * (fun c => if h : c < a then z ⟨c, h⟩ else 0) c = A.mulVec z i := by
    intro z i
    rw [← Fin.sum_univ_eq_sum_range (fun c => R i c * (fun c => if h : c < a then z ⟨c, h⟩ else 0) c)]
    simp [Matrix.mulVec, dotProduct, hA]
  have h1 : Function.Injective A.mulVec := by
    rw [Matrix.mulVec_injective_iff_isUnit, ← Matrix.mulVec_injective_iff_isUnit]
    intro z w hzw
    have hz : A.mulVec (z - w) = 0 := by rw [Matrix.mulVec_sub]; simp only [hzw, sub_self]
    funext c
    have := hinj (fun c => if h : c < a then (z - w) ⟨c, h⟩ else 0) (fun i hi => by
      rw [hext (z - w) ⟨i, hi⟩, hz]; rfl) c c.2
    simp only [c.2, dif_pos, Pi.sub_apply] at this
    exact sub_eq_zero.1 this
  have h2 : Function.Surjective A.mulVec :=
    Matrix.mulVec_surjective_iff_isUnit.2 (Matrix.mulVec_injective_iff_isUnit.1 h1)
  obtain ⟨z, hz⟩ := h2 fun i => t i
  refine ⟨fun c => if h : c < a then z ⟨c, h⟩ else 0, fun i hi => ?_⟩
  rw [hext z ⟨i, hi⟩, hz]

variable [LinearOrder K] [IsStrictOrderedRing K]

/-- Dropping the first `a` rows of the triangular system minimises over the first `a` unknowns. -/
theorem reduce {m n a : Nat} (ham : a ≤ n) (hnm : n ≤ m) {Q J R : Nat → Nat → K}
    (hQ : ∀ i k, i < m → k < m → ∑ l ∈ range m, Q l i * Q l k = if i = k then 1 else 0)
    (hJ : ∀ p c, p < m → c < n → J p c = ∑ l ∈ range m, Q p l * R l c)
    (hR : ∀ l c, c < l → R l c = 0) (b : Nat → K)
    (hdet : ∀ y : Nat → K, (∀ c, a ≤ c → y c = 0) → (∀ p, p < m → ∑ c ∈ range n, J p c * y c = 0) →
      ∀ c, c < a → y c = 0) :
    ∃ const : K, ∀ x : Nat → K,
      (∑ i ∈ range (n - a), (∑ j ∈ range (n - a), R (a + i) (a + j) * x (a + j) - ∑ p ∈ range m, Q p (a + i) * b p) ^ 2
        + const ≤ ∑ p ∈ range m, (∑ c ∈ range n, J p c * x c - b p) ^ 2) ∧
      ∃ x' : Nat → K, (∀ c, a ≤ c → x' c = x c) ∧
        ∑ p ∈ range m, (∑ c ∈ range n, J p c * x' c - b p) ^ 2 =
          ∑ i ∈ range (n - a), (∑ j ∈ range (n - a), R (a + i) (a + j) * x (a + j)
            - ∑ p ∈ range m, Q p (a + i) * b p) ^ 2 + const := by
  obtain ⟨d, hd⟩ : ∃ d : Nat → K, d = fun i => ∑ p ∈ range m, Q p i * b p := ⟨_, rfl⟩
  have hdi : ∀ i, ∑ p ∈ range m, Q p i * b p = d i := fun i => by rw [hd]
  -- the cost in the rotated system
  have hcost : ∀ x : Nat → K, ∑ p ∈ range m, (∑ c ∈ range n, J p c * x c - b p) ^ 2 =
      ∑ i ∈ range m, (∑ c ∈ range n, R i c * x c - d i) ^ 2 := by
    intro x
    have := orth_norm hQ (fun p => ∑ c ∈ range n, J p c * x c - b p)
    simp only [sq]
    rw [← this]
    refine sum_congr rfl fun i hi => ?_
    rw [rotate hQ hJ b x (mem_range.1 hi), hdi]
  -- its parts
  have hlow : ∀ (x : Nat → K) (i : Nat), i < n - a →
      ∑ c ∈ range n, R (a + i) c * x c = ∑ j ∈ range (n - a), R (a + i) (a + j) * x (a + j) := by
    intro x i hi
    have hn : n = a + (n - a) := by omega
    rw [hn, sum_range_add, Nat.add_sub_cancel_left]
    rw [sum_eq_zero (s := range a)]
    · rw [zero_add]
    · intro c hc; rw [hR _ _ (by have := mem_range.1 hc; omega), zero_mul]
  have hzero : ∀ (x : Nat → K) (i : Nat), n ≤ i → ∑ c ∈ range n, R i c * x c = 0 := by
    intro x i hi
    exact sum_eq_zero fun c hc => by rw [hR _ _ (by have := mem_range.1 hc; omega), zero_mul]
  have hsplit : ∀ f : Nat → K, ∑ i ∈ range m, f i =
      ∑ i ∈ range a, f i + ∑ i ∈ range (n - a), f (a + i) + ∑ i ∈ range (m - n), f (n + i) := by
    intro f
    have hm : m = a + (n - a) + (m - n) := by omega
    conv_lhs => rw [hm, sum_range_add, sum_range_add]
    congr 1
    exact sum_congr rfl fun i _ => by rw [show a + (n - a) + i = n + i by omega]
  have hmain : ∀ x : Nat → K, ∑ i ∈ range m, (∑ c ∈ range n, R i c * x c - d i) ^ 2 =
      ∑ i ∈ range a, (∑ c ∈ range n, R i c * x c - d i) ^ 2 +
      ∑ i ∈ range (n - a), (∑ j ∈ range (n - a), R (a + i) (a + j) * x (a + j) - d (a + i)) ^ 2 +
      ∑ i ∈ range (m - n), d (n + i) ^ 2 := by
    intro x
    rw [hsplit]
    congr 1
    · congr 1
      exact sum_congr rfl fun i hi => by rw [hlow x i (mem_range.1 hi)]
    · exact sum_congr rfl fun i _ => by rw [hzero x (n + i) (by omega)]; ring
  refine ⟨∑ i ∈ range (m - n), d (n + i) ^ 2, fun x => ⟨?_, ?_⟩⟩
  · simp only [hdi]
    rw [hcost, hmain]
    have : 0 ≤ ∑ i ∈ range a, (∑ c ∈ range n, R i c * x c - d i) ^ 2 := sum_nonneg fun i _ => sq_nonneg _
    linarith
  · -- the first unknowns
    have hinj : ∀ y : Nat → K, (∀ i, i < a → ∑ c ∈ range a, R i c * y c = 0) → ∀ c, c < a → y c = 0 := by
      intro y hy c hc
      obtain ⟨y', hy'⟩ : ∃ y' : Nat → K, y' = fun c => if c < a then y c else 0 := ⟨_, rfl⟩
      have hRy : ∀ i, i < m → ∑ c ∈ range n, R i c * y' c = 0 := by
        intro i him
        have hn : n = a + (n - a) := by omega
        rw [hn, sum_range_add]
        have e1 : ∑ c ∈ range (n - a), R i (a + c) * y' (a + c) = 0 :=
          sum_eq_zero fun c _ => by rw [hy']; simp
        have e2 : ∑ c ∈ range a, R i c * y' c = ∑ c ∈ range a, R i c * y c :=
          sum_congr rfl fun c hc => by rw [hy']; simp [mem_range.1 hc]
        rw [e1, e2, add_zero]
        by_cases hia : i < a
        · exact hy i hia
        · exact sum_eq_zero fun c hc => by rw [hR _ _ (by have := mem_range.1 hc; omega), zero_mul]
      have hJy : ∀ p, p < m → ∑ c ∈ range n, J p c * y' c = 0 := by
        intro p hp
        calc ∑ c ∈ range n, J p c * y' c = ∑ c ∈ range n, ∑ l ∈ range m, Q p l * (R l c * y' c) := by
              refine sum_congr rfl fun c hc => ?_
              rw [hJ p c hp (mem_range.1 hc), sum_mul]
              exact sum_congr rfl fun l _ => by ring
          _ = ∑ l ∈ range m, Q p l * ∑ c ∈ range n, R l c * y' c := by
              rw [sum_comm]
              exact sum_congr rfl fun l _ => by rw [mul_sum]
          _ = 0 := sum_eq_zero fun l hl => by rw [hRy l (mem_range.1 hl), mul_zero]
      have := hdet y' (fun c hc => by rw [hy']; simp [not_lt.2 hc]) hJy c hc
      rw [hy'] at this
      simpa [hc] using this
    obtain ⟨y, hy⟩ := solve_top R hinj fun i => d i - ∑ j ∈ range (n - a), R i (a + j) * x (a + j)
    refine ⟨fun c => if c < a then y c else x c, fun c hc => if_neg (by omega), ?_⟩
    simp only [hdi]
    rw [hcost, hmain]
    have e1 : ∑ i ∈ range a, (∑ c ∈ range n, R i c * (fun c => if c < a then y c else x c) c - d i) ^ 2 = 0 := by
      refine sum_eq_zero fun i hi => ?_
      have hn : n = a + (n - a) := by omega
      have : ∑ c ∈ range n, R i c * (fun c => if c < a then y c else x c) c = d i := by
        conv_lhs => rw [hn, sum_range_add]
        have f1 : ∑ c ∈ range a, R i c * (fun c => if c < a then y c else x c) c = ∑ c ∈ range a, R i c * y c :=
          sum_congr rfl fun c hc => by simp [mem_range.1 hc]
        have f2 : ∑ c ∈ range (n - a), R i (a + c) * (fun c => if c < a then y c else x c) (a + c) =
            ∑ c ∈ range (n - a), R i (a + c) * x (a + c) :=
          sum_congr rfl fun c hc => by simp
        rw [f1, f2, hy i (mem_range.1 hi)]; ring
      rw [this, sub_self]; ring
    rw [e1, zero_add]
    congr 1
    refine sum_congr rfl fun i _ => ?_
    congr 2
    exact sum_congr rfl fun j _ => by simp

end Kalibr.Marg
