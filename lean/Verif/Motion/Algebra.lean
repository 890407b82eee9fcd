import Verif.Motion.Model
import Verif.BSpline.Calculus

/-! Lemmas about the segment matrices: sums over flat indices, and the matrices that the code builds. -/

set_option linter.unusedSectionVars false

namespace Kalibr.Motion

open BSpline Sparse Finset

variable {K : Type} [Field K] [LinearOrder K] [IsStrictOrderedRing K] {D : Nat}

theorem sum_range_mul {M : Type} [AddCommMonoid M] (f : Nat → M) (n m : Nat) :
    ∑ i ∈ range (n * m), f i = ∑ j ∈ range n, ∑ d ∈ range m, f (j * m + d) := by
  induction n with
  | zero => simp
  | succ n ih => rw [Nat.succ_mul, sum_range_add, ih, sum_range_succ]

theorem sum_range_mul' {M : Type} [AddCommMonoid M] (f : Nat → M) (n m : Nat) :
    ∑ i ∈ range (n * m), f i = ∑ j ∈ range m, ∑ d ∈ range n, f (j * n + d) := by
  rw [mul_comm, sum_range_mul]

theorem div_lin {m d : Nat} (h : d < m) (j : Nat) : (j * m + d) / m = j := by
  rw [mul_comm, Nat.mul_add_div (by omega), Nat.div_eq_of_lt h, add_zero]

theorem mod_lin {m d : Nat} (h : d < m) (j : Nat) : (j * m + d) % m = d := by
  rw [mul_comm, Nat.mul_add_mod, Nat.mod_eq_of_lt h]

/-- The quadratic form of a matrix. -/
def quad (n : Nat) (Q : Nat → Nat → K) (x : Nat → K) : K :=
  ∑ i ∈ range n, ∑ j ∈ range n, x i * Q i j * x j

theorem quad_congr {n : Nat} (Q : Nat → Nat → K) {x y : Nat → K} (h : ∀ i, i < n → x i = y i) :
    quad n Q x = quad n Q y := by
  unfold quad
  refine sum_congr rfl fun i hi => sum_congr rfl fun j hj => ?_
  rw [h i (mem_range.1 hi), h j (mem_range.1 hj)]

/-- `xᵀ (Mᵀ A M) x = (M x)ᵀ A (M x)`. -/
theorem quad_conj (n : Nat) (M A : Nat → Nat → K) (x : Nat → K) :
    quad n (mmul n (mmul n (tr M) A) M) x = quad n A fun a => ∑ i ∈ range n, M a i * x i := by
  have e : ∀ i j, mmul n (mmul n (tr M) A) M i j = ∑ a ∈ range n, ∑ b ∈ range n, M a i * A a b * M b j := by
    intro i j
    simp only [mmul, tr, sum_mul]
    rw [sum_comm]
  simp only [quad, e, mul_sum, sum_mul]
  calc ∑ i ∈ range n, ∑ j ∈ range n, ∑ a ∈ range n, ∑ b ∈ range n, x i * (M a i * A a b * M b j) * x j
      = ∑ i ∈ range n, ∑ a ∈ range n, ∑ b ∈ range n, ∑ j ∈ range n, x i * (M a i * A a b * M b j) * x j := by
        refine sum_congr rfl fun i _ => ?_
        rw [sum_comm]
        refine sum_congr rfl fun a _ => ?_
        rw [sum_comm]
    _ = ∑ a ∈ range n, ∑ b ∈ range n, ∑ i ∈ range n, ∑ j ∈ range n, x i * (M a i * A a b * M b j) * x j := by
        rw [sum_comm]
        refine sum_congr rfl fun a _ => ?_
        rw [sum_comm]
    _ = _ := by
        refine sum_congr rfl fun a _ => sum_congr rfl fun b _ => ?_
        rw [sum_comm]
        refine sum_congr rfl fun j _ => sum_congr rfl fun i _ => ?_
        ring

/-- A window of the coefficients: coordinate `d` of the polynomial coefficients of a segment. -/
def polyCoef (D order : Nat) (M : Nat → Nat → K) (x : Nat → K) (d r : Nat) : K :=
  ∑ j ∈ range order, M r j * x (j * D + d)

theorem Mi_mul (order : Nat) (M : Nat → Nat → K) (x : Nat → K) {d r : Nat} (hd : d < D) (hr : r < order) :
    ∑ i ∈ range (D * order), Bij order M (i / D) (d * order + r) (i % D) * x i =
      polyCoef D order M x d r := by
  rw [sum_range_mul']
  unfold polyCoef
  refine sum_congr rfl fun j _ => ?_
  rw [sum_eq_single d]
  · rw [div_lin hd, mod_lin hd, Bij, div_lin hr, mod_lin hr, if_pos rfl]
  · intro e he hne
    have he := mem_range.1 he
    rw [div_lin he, mod_lin he, Bij, div_lin hr, if_neg (Ne.symm hne), zero_mul]
  · intro h
    exact absurd (mem_range.2 hd) h

/-- The quadratic form of a segment matrix in the polynomial coefficients. -/
theorem quad_segment (order : Nat) (M V : Nat → Nat → K) (W : Nat → Nat → K) (x : Nat → K) :
    quad (D * order)
      (mmul (D * order) (mmul (D * order) (tr fun a c => Bij order M (c / D) a (c % D))
        fun a b => W (a / order) (b / order) * V (a % order) (b % order))
        fun a c => Bij order M (c / D) a (c % D)) x =
      ∑ d ∈ range D, ∑ r ∈ range order, ∑ e ∈ range D, ∑ q ∈ range order,
        polyCoef D order M x d r * (W d e * V r q) * polyCoef D order M x e q := by
  rw [quad_conj, quad, sum_range_mul]
  refine sum_congr rfl fun d hd => sum_congr rfl fun r hr => ?_
  rw [sum_range_mul]
  refine sum_congr rfl fun e he => sum_congr rfl fun q hq => ?_
  have hd := mem_range.1 hd; have hr := mem_range.1 hr; have he := mem_range.1 he; have hq := mem_range.1 hq
  rw [Mi_mul order M x hd hr, Mi_mul order M x he hq, div_lin hr, div_lin hq, mod_lin hr, mod_lin hq]

section Outcomes

variable {s : Spline K D}

theorem basis_length (w : WellFormed s) : s.basis.length = numValidTimeSegments s.order s.knots.length := by
  rw [w.basis_eq, initBasis, List.length_map, List.length_range]

theorem basis_some (w : WellFormed s) {seg : Nat} (h : seg < numValidTimeSegments s.order s.knots.length) :
    s.basis[seg]? = some (basisM (knotAt s.knots) s.order (seg + s.order - 1)) := by
  rw [w.basis_eq, initBasis]
  simp [h]

theorem timeInterval_ok (w : WellFormed s) {seg : Nat}
    (h : seg < numValidTimeSegments s.order s.knots.length) :
    timeInterval s seg = .ok (knotAt s.knots (seg + s.order - 1), knotAt s.knots (seg + s.order - 1 + 1)) := by
  have hk := w.order_ge; have hn := w.enough
  rw [timeInterval, if_neg (by rw [minimumKnotsRequired_eq _ (by omega)]; omega), if_neg (by omega),
    show s.order + seg - 1 = seg + s.order - 1 by omega, show s.order + seg = seg + s.order - 1 + 1 by omega]

/-- The matrix of powers of a segment. -/
def powMat (s : Spline K D) (i : Nat) : Nat → Nat → K := fun r c =>
  1 / ((r + c : Nat) + 1) * (knotAt s.knots (i + 1) - knotAt s.knots i)

/-- The differentiation matrix of a segment. -/
def difMat (s : Spline K D) (i : Nat) : Nat → Nat → K := fun a b =>
  if b = a + 1 ∧ a + 1 < s.order then ((a : K) + 1) *
    (if 0 < knotAt s.knots (i + 1) - knotAt s.knots i then 1 / (knotAt s.knots (i + 1) - knotAt s.knots i)
      else 0) else 0

/-- The matrix of a segment, when every check passes. -/
def segMat (s : Spline K D) (W : Nat → Nat → K) (seg n : Nat) : Nat → Nat → K :=
  let i := seg + s.order - 1
  mmul (D * s.order) (mmul (D * s.order)
    (tr fun a c => Bij s.order (basisM (knotAt s.knots) s.order i) (c / D) a (c % D))
    fun a b => W (a / s.order) (b / s.order) *
      derive s.order (difMat s i) n (powMat s i) (a % s.order) (b % s.order))
    fun a c => Bij s.order (basisM (knotAt s.knots) s.order i) (c / D) a (c % D)

theorem segment_ok (w : WellFormed s) {W : Mat K} (hr : W.rows = D) (hc : W.cols = D)
    (hs : nearSymmetric D W) (n : Nat) {seg : Nat}
    (h : seg < numValidTimeSegments s.order s.knots.length) :
    segmentQuadraticIntegral s W seg n = .ok (segMat s W.get seg n) := by
  have hb := basis_length w
  simp only [segmentQuadraticIntegral, Dii, Vi, Mi, if_neg (show ¬s.basis.length ≤ seg by omega), hr, hc,
    if_neg (show ¬numValidTimeSegments s.order s.knots.length ≤ seg by omega), timeInterval_ok w h,
    basis_some w h, if_pos hs, ne_eq, not_true_eq_false, if_false, Out.ok_bind, Out.pure_eq, Out.ok.injEq]
  rfl

theorem segment_diag_ok (w : WellFormed s) {v : List K} (hr : v.length = D) (n : Nat) {seg : Nat}
    (h : seg < numValidTimeSegments s.order s.knots.length) :
    segmentQuadraticIntegralDiag s v seg n =
      .ok (segMat s (fun a b => if a = b then v.getD a 0 else 0) seg n) := by
  have hb := basis_length w
  simp only [segmentQuadraticIntegralDiag, Dii, Vi, Mi, if_neg (show ¬s.basis.length ≤ seg by omega), hr,
    if_neg (show ¬numValidTimeSegments s.order s.knots.length ≤ seg by omega), timeInterval_ok w h,
    basis_some w h, ne_eq, not_true_eq_false, if_false, Out.ok_bind, Out.pure_eq, Out.ok.injEq, segMat]
  congr 2
  funext a b
  by_cases hab : a / s.order = b / s.order
  · simp only [hab, if_pos]; rfl
  · simp only [if_neg hab, zero_mul]

/-- The window of a stacked coefficient vector that a segment reads. -/
def window (D seg : Nat) (x : Nat → K) : Nat → K := fun i => x (seg * D + i)

/-- The dense loop adds up the segment matrices at their places. -/
theorem denseLoop_ok (order cols : Nat) (segQ : Nat → Out (Nat → Nat → K)) (B : Nat → Nat → Nat → K)
    (l : List Nat) (h : ∀ a ∈ l, segQ a = .ok (B a) ∧ a + order ≤ cols) (Q : Nat → Nat → K) :
    ∃ R, denseLoop order D cols segQ l Q = .ok R ∧ ∀ i j, R i j = Q i j +
      (l.map fun a => if a * D ≤ i ∧ i < a * D + order * D ∧ a * D ≤ j ∧ j < a * D + order * D then
        B a (i - a * D) (j - a * D) else 0).sum := by
  induction l generalizing Q with
  | nil => exact ⟨Q, rfl, by simp⟩
  | cons a l ih =>
    obtain ⟨ha, hc⟩ := h a (by simp)
    obtain ⟨R, hR, hv⟩ := ih (fun b hb => h b (by simp [hb])) (addBlock Q (a * D) (order * D) (B a))
    refine ⟨R, ?_, ?_⟩
    · simp only [denseLoop, ha, Out.ok_bind, if_neg (show ¬cols < a + order by omega)]
      exact hR
    · intro i j
      rw [hv, List.map_cons, List.sum_cons, addBlock]
      split_ifs with h1 <;> ring

theorem quad_block (n p m : Nat) (hm : p + m ≤ n) (B : Nat → Nat → K) (x : Nat → K) :
    quad n (fun i j => if p ≤ i ∧ i < p + m ∧ p ≤ j ∧ j < p + m then B (i - p) (j - p) else 0) x =
      quad m B fun i => x (p + i) := by
  have one : ∀ f : Nat → K, ∑ i ∈ range n, (if p ≤ i ∧ i < p + m then f i else 0) =
      ∑ i ∈ range m, f (p + i) := by
    intro f
    rw [← sum_filter]
    refine (sum_nbij' (fun i => p + i) (fun i => i - p) ?_ ?_ ?_ ?_ ?_).symm
    · intro i hi; have := mem_range.1 hi; simp only [mem_filter, mem_range]; omega
    · intro i hi; simp only [mem_filter, mem_range] at hi ⊢; omega
    · intro i _; omega
    · intro i hi; simp only [mem_filter, mem_range] at hi; omega
    · intro i _; rfl
  unfold quad
  have e : ∀ i, ∑ j ∈ range n, x i * (if p ≤ i ∧ i < p + m ∧ p ≤ j ∧ j < p + m then B (i - p) (j - p) else 0) *
      x j = if p ≤ i ∧ i < p + m then ∑ j ∈ range m, x i * B (i - p) j * x (p + j) else 0 := by
    intro i
    by_cases hi : p ≤ i ∧ i < p + m
    · rw [if_pos hi, ← one' one i x B p]
      refine sum_congr rfl fun j _ => ?_
      by_cases hj : p ≤ j ∧ j < p + m
      · rw [if_pos ⟨hi.1, hi.2, hj⟩, if_pos hj]
      · rw [if_neg hj, if_neg (by tauto)]; ring
    · rw [if_neg hi]
      refine sum_eq_zero fun j _ => ?_
      rw [if_neg (by tauto)]; ring
  rw [sum_congr rfl fun i _ => e i, one]
  refine sum_congr rfl fun i _ => sum_congr rfl fun j _ => ?_
  rw [Nat.add_sub_cancel_left]
where
  one' {n m p : Nat} (one : ∀ f : Nat → K, ∑ i ∈ range n, (if p ≤ i ∧ i < p + m then f i else 0) =
      ∑ i ∈ range m, f (p + i)) (i : Nat) (x : Nat → K) (B : Nat → Nat → K) (p' : Nat) :
      ∑ j ∈ range n, (if p ≤ j ∧ j < p + m then x i * B (i - p') (j - p) * x j else 0) =
        ∑ j ∈ range m, x i * B (i - p') j * x (p + j) := by
    rw [one fun j => x i * B (i - p') (j - p) * x j]
    refine sum_congr rfl fun j _ => ?_
    rw [Nat.add_sub_cancel_left]

theorem quad_zero (n : Nat) (x : Nat → K) : quad n (fun _ _ => 0) x = 0 := by simp [quad]

theorem quad_add (n : Nat) (A B : Nat → Nat → K) (x : Nat → K) :
    quad n (fun i j => A i j + B i j) x = quad n A x + quad n B x := by
  simp only [quad, ← sum_add_distrib]
  refine sum_congr rfl fun i _ => sum_congr rfl fun j _ => ?_
  ring

theorem quad_list (n : Nat) {β : Type} (l : List β) (B : β → Nat → Nat → K) (x : Nat → K) :
    quad n (fun i j => (l.map fun a => B a i j).sum) x = (l.map fun a => quad n (B a) x).sum := by
  induction l with
  | nil => simpa using quad_zero n x
  | cons a l ih => simp only [List.map_cons, List.sum_cons]; rw [quad_add, ih]

end Outcomes

end Kalibr.Motion
