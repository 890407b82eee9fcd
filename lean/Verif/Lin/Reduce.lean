import Verif.Lin.Gram

/-!
# The reduced system
-/

namespace Kalibr.Lin

open Finset

variable {K : Type} [Field K] [LinearOrder K]

/-- Row `i` of `Qᵀ A`, at column `c`. -/
def rot (F : Spqr K) (A : Mat K) (i c : Nat) : K := ∑ l ∈ range A.rows, F.q l i * A.get l c

/-- What is left of an inner product after the first `k` rotated coordinates. -/
theorem inner_tail {m k : Nat} (hk : k ≤ m) {q : Nat → Nat → K} (h : Orthonormal m q) (u v : Nat → K) :
    ∑ p ∈ range m, u p * v p - ∑ i ∈ range k, (∑ p ∈ range m, u p * q p i) * (∑ p ∈ range m, v p * q p i) =
      ∑ i ∈ Ico k m, (∑ p ∈ range m, q p i * u p) * (∑ p ∈ range m, q p i * v p) := by
  have e : ∀ (w : Nat → K) i, ∑ p ∈ range m, w p * q p i = ∑ p ∈ range m, q p i * w p :=
    fun w i => sum_congr rfl fun p _ => mul_comm _ _
  rw [← orth_inner h u v, ← sum_range_add_sum_Ico _ hk]
  simp only [e]
  ring

omit [LinearOrder K] in
theorem mul_get (a b : Mat K) (i j : Nat) : (a.mul b).get i j = ∑ k ∈ range a.cols, a.get i k * b.get k j := rfl

omit [LinearOrder K] in
theorem transpose_get (a : Mat K) (i j : Nat) : a.transpose.get i j = a.get j i := rfl

theorem reduceLeft_ok {F : Spqr K} {Ar : Mat K} {n : Nat} (hn : n < Ar.rows) (hF : Orthonormal Ar.rows F.q) :
    ∃ Ω ArtQ, reduceLeftHandSide F n Ar.transpose = .ok (Ω, ArtQ) ∧ Ω.rows = Ar.cols ∧ Ω.cols = Ar.cols ∧
      (∀ c c', Ω.get c c' = ∑ i ∈ Ico (n + 1) Ar.rows, rot F Ar i c * rot F Ar i c') ∧
      ArtQ = ⟨Ar.cols, n + 1, fun c i => ∑ l ∈ range Ar.rows, Ar.get l c * F.q l i⟩ := by
  have h1 : ¬((n : Int) < 0) := by omega
  have h2 : ¬((Ar.rows : Int) ≤ n) := by omega
  have h3 : ((n : Int) - 0 + 1).toNat = n + 1 := by omega
  refine ⟨⟨Ar.cols, Ar.cols, fun i j => ∑ k ∈ range Ar.rows, Ar.get k i * Ar.get k j -
      ∑ x ∈ range (n + 1), (∑ k ∈ range Ar.rows, Ar.get k i * F.q k x) * ∑ k ∈ range Ar.rows, Ar.get k j * F.q k x⟩, _, by
    simp only [reduceLeftHandSide, columnSubmatrix, if_neg h1, Mat.mul, Mat.transpose, if_neg h2, lt_irrefl, if_false,
      Out.ok_bind, Out.pure_eq, h3, Int.toNat_zero, Nat.zero_add], rfl, rfl, fun c c' => ?_, rfl⟩
  exact inner_tail (k := n + 1) (by omega) hF (fun p => Ar.get p c) (fun p => Ar.get p c')

theorem reduceRight_ok {F : Spqr K} {Ar b : Mat K} {n : Nat} (hn : n < Ar.rows) (hb : b.rows = Ar.rows)
    (hF : Orthonormal Ar.rows F.q) :
    ∃ br, reduceRightHandSide F n Ar.transpose
        ⟨Ar.cols, n + 1, fun c i => ∑ l ∈ range Ar.rows, Ar.get l c * F.q l i⟩ b = .ok br ∧ br.rows = Ar.cols ∧
      ∀ c, br.get c 0 = ∑ i ∈ Ico (n + 1) Ar.rows, rot F Ar i c * rot F b i 0 := by
  have h1 : ¬((n : Int) < 0) := by omega
  have h2 : ¬((b.rows : Int) ≤ n) := by omega
  refine ⟨_, by
    simp only [reduceRightHandSide, rowSubmatrix, if_neg h1, Mat.mul, Mat.transpose, if_neg h2, lt_irrefl, if_false,
      Out.ok_bind, Out.pure_eq, Int.toNat_zero, Nat.zero_add]
    rfl, rfl, fun c => ?_⟩
  have := inner_tail (k := n + 1) (by omega) hF (fun p => Ar.get p c) (fun p => b.get p 0)
  simp only [rot, hb]
  rw [← this]
  congr 1
  refine sum_congr rfl fun i _ => ?_
  congr 1
  exact sum_congr rfl fun p _ => mul_comm _ _

omit [LinearOrder K] in
/-- If there are no more rows than columns to remove, the reduction is an exception. -/
theorem reduceLeft_raise {F : Spqr K} {Ar : Mat K} {n : Nat} (hn : Ar.rows ≤ n) :
    reduceLeftHandSide F n Ar.transpose = .raise := by
  have h1 : ¬((n : Int) < 0) := by omega
  have h2 : (Ar.rows : Int) ≤ n := by omega
  simp [reduceLeftHandSide, columnSubmatrix, Mat.mul, Mat.transpose, h2]

omit [LinearOrder K] in
/-- The rotated residual of `[L R] (x, y) - b`. -/
theorem rot_residual (F : Spqr K) (L R b : Mat K) (hR : R.rows = L.rows) (hb : b.rows = L.rows) (x y : Nat → K) (i : Nat) :
    ∑ p ∈ range L.rows, F.q p i *
      (∑ c ∈ range L.cols, L.get p c * x c + ∑ c ∈ range R.cols, R.get p c * y c - b.get p 0) =
    ∑ c ∈ range L.cols, rot F L i c * x c + ∑ c ∈ range R.cols, rot F R i c * y c - rot F b i 0 := by
  have e : ∀ (M : Mat K) (z : Nat → K), M.rows = L.rows → ∑ p ∈ range L.rows, F.q p i * ∑ c ∈ range M.cols, M.get p c * z c =
      ∑ c ∈ range M.cols, rot F M i c * z c := by
    intro M z hM
    simp only [rot, mul_sum, sum_mul, hM]
    rw [sum_comm]
    exact sum_congr rfl fun c _ => sum_congr rfl fun p _ => by ring
  simp only [mul_sub, mul_add, sum_sub_distrib, sum_add_distrib]
  rw [e L x rfl, e R y hR]
  simp only [rot, hb]

/-- The sum of squares of the residual, in rotated coordinates. -/
theorem residual_split {F : Spqr K} {L : Mat K} (hF : IsSpqr L F) (hn : L.cols ≤ L.rows) (R b : Mat K) (hR : R.rows = L.rows)
    (hb : b.rows = L.rows) (x y : Nat → K) :
    ∑ p ∈ range L.rows, (∑ c ∈ range L.cols, L.get p c * x c + ∑ c ∈ range R.cols, R.get p c * y c - b.get p 0) ^ 2 =
      ∑ i ∈ range L.cols, (∑ c ∈ range L.cols, rot F L i c * x c + ∑ c ∈ range R.cols, rot F R i c * y c - rot F b i 0) ^ 2 +
      ∑ i ∈ Ico L.cols L.rows, (∑ c ∈ range R.cols, rot F R i c * y c - rot F b i 0) ^ 2 := by
  have := orth_inner hF.orth
    (fun p => ∑ c ∈ range L.cols, L.get p c * x c + ∑ c ∈ range R.cols, R.get p c * y c - b.get p 0)
    (fun p => ∑ c ∈ range L.cols, L.get p c * x c + ∑ c ∈ range R.cols, R.get p c * y c - b.get p 0)
  simp only [rot_residual F L R b hR hb x y] at this
  simp only [sq]
  rw [← this, ← sum_range_add_sum_Ico _ hn]
  congr 1
  refine sum_congr rfl fun i hi => ?_
  obtain ⟨h1, h2⟩ := mem_Ico.1 hi
  have h0 : ∑ c ∈ range L.cols, rot F L i c * x c = 0 :=
    sum_eq_zero fun c hc => by rw [rot, hF.zero i c h1 h2 (mem_range.1 hc), zero_mul]
  rw [h0, zero_add]

omit [LinearOrder K] in
/-- The quadratic form of a Gram matrix. -/
theorem form_gram {s : Finset Nat} {r : Nat} {W : Nat → Nat → K} {Ω : Nat → Nat → K}
    (h : ∀ c c', c < r → c' < r → Ω c c' = ∑ i ∈ s, W i c * W i c') (y : Nat → K) :
    form r Ω y = ∑ i ∈ s, (∑ c ∈ range r, W i c * y c) ^ 2 := by
  calc form r Ω y = ∑ a ∈ range r, ∑ c ∈ range r, ∑ i ∈ s, (W i a * y a) * (W i c * y c) := by
        refine sum_congr rfl fun a ha => sum_congr rfl fun c hc => ?_
        rw [h a c (mem_range.1 ha) (mem_range.1 hc), mul_sum, sum_mul]
        exact sum_congr rfl fun i _ => by ring
    _ = ∑ i ∈ s, ∑ a ∈ range r, ∑ c ∈ range r, (W i a * y a) * (W i c * y c) := by
        rw [sum_comm]
        rw [sum_congr rfl fun c _ => sum_comm]
        rw [sum_comm]
        exact sum_congr rfl fun i _ => sum_comm
    _ = _ := sum_congr rfl fun i _ => by rw [sq, sum_mul_sum]

variable [IsStrictOrderedRing K]

/-- The Gram matrix of the rotated rows from `n` on is the information. -/
theorem information {F : Spqr K} {A : Mat K} {n r : Nat} (hF : IsSpqr ⟨A.rows, n, A.get⟩ F) (hn : n ≤ A.rows) {Ω : Nat → Nat → K}
    (hΩ : ∀ c c', c < r → c' < r → Ω c c' = ∑ i ∈ Ico n A.rows,
      rot F ⟨A.rows, r, fun i c => A.get i (n + c)⟩ i c * rot F ⟨A.rows, r, fun i c => A.get i (n + c)⟩ i c') :
    IsInformation A n r Ω := by
  have hsplit := residual_split hF hn ⟨A.rows, r, fun i c => A.get i (n + c)⟩ ⟨A.rows, 1, fun _ _ => 0⟩ rfl rfl
  have hz : ∀ i, rot F ⟨A.rows, 1, fun _ _ => (0 : K)⟩ i 0 = 0 := fun i => by simp [rot]
  simp only [sub_zero, hz] at hsplit
  intro y
  rw [form_gram hΩ y]
  refine ⟨fun x => ?_, ?_⟩
  · rw [hsplit x y]
    exact le_add_of_nonneg_left (sum_nonneg fun i _ => sq_nonneg _)
  · obtain ⟨x, hx⟩ : ∃ x, x = F.solve fun i =>
        -(∑ c ∈ range r, rot F ⟨A.rows, r, fun i c => A.get i (n + c)⟩ i c * y c) := ⟨_, rfl⟩
    refine ⟨x, ?_⟩
    rw [hsplit x y]
    have h0 : ∑ i ∈ range n, (∑ c ∈ range n, rot F ⟨A.rows, n, A.get⟩ i c * x c +
        ∑ c ∈ range r, rot F ⟨A.rows, r, fun i c => A.get i (n + c)⟩ i c * y c) ^ 2 = 0 := by
      refine sum_eq_zero fun i hi => ?_
      have := hF.solves (fun i => -(∑ c ∈ range r, rot F ⟨A.rows, r, fun i c => A.get i (n + c)⟩ i c * y c)) i (mem_range.1 hi)
      rw [← hx] at this
      simp only [rot] at this ⊢
      rw [this]
      ring
    rw [h0, zero_add]

end Kalibr.Lin
