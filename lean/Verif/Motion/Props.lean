import Verif.Motion.Integral
import Verif.Sparse.Props

/-!
# C101: integrals of squared derivatives of a spline

The matrices that `curveQuadraticIntegral` and its variants return have the integral of the weighted squared
derivative as their quadratic form, for every spline, every coefficient vector and every order of the derivative.
-/

set_option linter.unusedSectionVars false

namespace Kalibr.Motion

open BSpline Sparse Finset

/-! ## Layout of the sparse matrix -/

theorem layout_length (D N : Nat) : (layout D N).length = N := by simp [layout]

theorem layout_getD (D N : Nat) {k : Nat} (h : k < N) : (layout D N).getD k 0 = (k + 1) * D := by
  simp [layout, List.getD_eq_getElem?_getD, h]

theorem layout_mono (D N : Nat) : Mono (layout D N) := by
  rw [Mono, List.pairwise_iff_getElem]
  intro i j hi hj hij
  simp only [layout, List.getElem_map, List.getElem_range]
  exact Nat.mul_le_mul_right _ (by omega)

theorem layout_base (D N : Nat) {k : Nat} (h : k ≤ N) : base (layout D N) k = k * D := by
  unfold base
  split_ifs with h0
  · simp [h0]
  · rw [layout_getD D N (by omega), show k - 1 + 1 = k by omega]

theorem layout_size (D N : Nat) {k : Nat} (h : k < N) : size (layout D N) k = D := by
  have h1 := layout_base D N (show k + 1 ≤ N by omega)
  rw [base_succ (layout_mono D N) (by rwa [layout_length]), layout_base D N h.le, Nat.succ_mul] at h1
  omega

theorem layout_total (D N : Nat) : total (layout D N) = N * D := by
  rw [total_eq, layout_length, layout_base D N le_rfl]

section Field

variable {K : Type} [Field K] [LinearOrder K] [IsStrictOrderedRing K] {D : Nat} {s : Spline K D}

theorem mem_pairs {k : Nat} {p : Nat × Nat} : p ∈ pairs k ↔ p.1 < k ∧ p.2 < k := by
  simp only [pairs, List.mem_flatMap, List.mem_range, List.mem_map]
  constructor
  · rintro ⟨i, hi, j, hj, rfl⟩; exact ⟨hi, hj⟩
  · rintro ⟨h1, h2⟩; exact ⟨p.1, h1, p.2, h2, rfl⟩

theorem sum_list_range {M : Type} [AddCommMonoid M] (m : Nat) (f : Nat → M) :
    ((List.range m).map f).sum = ∑ i ∈ range m, f i := by
  induction m with
  | zero => simp
  | succ m ih => rw [List.range_succ, List.map_append, List.sum_append, ih, sum_range_succ]; simp

theorem sum_pairs {M : Type} [AddCommMonoid M] (k : Nat) (f : Nat × Nat → M) :
    ((pairs k).map f).sum = ∑ i ∈ range k, ∑ j ∈ range k, f (i, j) := by
  rw [pairs, List.map_flatMap, List.flatMap_def, List.sum_flatten, List.map_map, sum_list_range]
  refine sum_congr rfl fun i _ => ?_
  simp only [Function.comp_apply, List.map_map]
  rw [sum_list_range]
  rfl

/-- The sparse loop stores, at every place, the sum of the segment matrices there. -/
theorem sparseLoop_ok (order N : Nat) (segQ : Nat → Out (Nat → Nat → K)) (B : Nat → Nat → Nat → K)
    (l : List Nat) (h : ∀ a ∈ l, segQ a = .ok (B a) ∧ a + order ≤ N) (A : SBM K) (hA : WF A)
    (hr : A.rbi = layout D N) (hc : A.cbi = layout D N) :
    ∃ R, sparseLoop order D N segQ l A = .ok R ∧ WF R ∧ R.rbi = layout D N ∧ R.cbi = layout D N ∧
      ∀ r c x y, val R r c x y = val A r c x y +
        (l.map fun a => if a ≤ r ∧ r < a + order ∧ a ≤ c ∧ c < a + order then
          B a ((r - a) * D + x) ((c - a) * D + y) else 0).sum := by
  induction l generalizing A with
  | nil => exact ⟨A, rfl, hA, hr, hc, by simp⟩
  | cons a l ih =>
    obtain ⟨ha, hN⟩ := h a (by simp)
    have hk : ∀ b ∈ pairs order, a + b.1 < A.rbi.length ∧ a + b.2 < A.cbi.length := by
      intro b hb
      have := mem_pairs.1 hb
      rw [hr, hc, layout_length]
      omega
    obtain ⟨w1, r1, c1⟩ := fold_wf (pairs order) (fun p => (a + p.1, a + p.2))
      (fun p d => d.add (subBlock D (B a) p.1 p.2)) A hA (fun b hb => ⟨(hk b hb).1, fun J h1 h2 => ⟨h1, h2⟩⟩)
    have hv := fold_add (pairs order) (fun p => (a + p.1, a + p.2)) (fun p => subBlock D (B a) p.1 p.2) A hA hk
    obtain ⟨R, hR, wR, rR, cR, vR⟩ := ih (fun b hb => h b (by simp [hb])) (placeSegment order D a (B a) A) w1
      (by rw [← hr]; exact r1) (by rw [← hc]; exact c1)
    refine ⟨R, ?_, wR, rR, cR, ?_⟩
    · simp only [sparseLoop, ha, Out.ok_bind, if_neg (show ¬N < a + order by omega)]
      exact hR
    · intro r c x y
      rw [vR, placeSegment, hv, List.map_cons, List.sum_cons, add_assoc, sum_pairs]
      congr 2
      by_cases hin : a ≤ r ∧ r < a + order ∧ a ≤ c ∧ c < a + order
      · rw [if_pos hin, sum_eq_single (r - a), sum_eq_single (c - a)]
        · dsimp only
          rw [if_pos (by omega)]; rfl
        · intro j _ hj; dsimp only; rw [if_neg (by omega)]
        · intro hj; exact absurd (mem_range.2 (by omega)) hj
        · intro i _ hi; exact sum_eq_zero fun j _ => by dsimp only; rw [if_neg (by omega)]
        · intro hi; exact absurd (mem_range.2 (by omega)) hi
      · rw [if_neg hin]
        refine sum_eq_zero fun i hi => sum_eq_zero fun j hj => ?_
        have := mem_range.1 hi; have := mem_range.1 hj
        dsimp only
        rw [if_neg (by omega)]

theorem numValid_cols (w : WellFormed s) {a : Nat} (h : a < numValidTimeSegments s.order s.knots.length) :
    a + s.order ≤ s.coeffs.length := by
  have := w.order_ge; have := w.enough; have := w.count
  unfold numValidTimeSegments at h
  omega

/-- **C101** (the sparse matrix).  For every well-formed spline, weight matrix and order of the derivative, the
sparse and the dense function either both raise or both return, and then the sparse matrix is well formed, is
laid out in blocks of the size of a coefficient, and stands for the dense matrix. -/
theorem C101_sparse (w : WellFormed s) (W : Mat K) (n : Nat) :
    (∃ Q A, curveQuadraticIntegral s W n = .ok Q ∧ curveQuadraticIntegralSparse s W n = .ok A ∧ WF A ∧
      A.rbi = layout D s.coeffs.length ∧ A.cbi = layout D s.coeffs.length ∧
      Denotes A ⟨s.coeffs.length * D, s.coeffs.length * D, Q⟩) ∨
    (curveQuadraticIntegral s W n = .raise ∧ curveQuadraticIntegralSparse s W n = .raise) := by
  have hk := w.order_ge; have hn := w.enough
  by_cases hW : W.rows = D ∧ W.cols = D ∧ nearSymmetric D W
  · left
    obtain ⟨hr, hc, hs⟩ := hW
    have hseg : ∀ a ∈ List.range (numValidTimeSegments s.order s.knots.length),
        segmentQuadraticIntegral s W a n = .ok (segMat s W.get a n) ∧ a + s.order ≤ s.coeffs.length :=
      fun a ha => ⟨segment_ok w hr hc hs n (List.mem_range.1 ha), numValid_cols w (List.mem_range.1 ha)⟩
    obtain ⟨Q, hQ, vQ⟩ := denseLoop_ok (D := D) s.order s.coeffs.length
      (fun seg => segmentQuadraticIntegral s W seg n) (fun a => segMat s W.get a n) _ hseg fun _ _ => 0
    obtain ⟨A, hA, wA, rA, cA, vA⟩ := sparseLoop_ok (D := D) s.order s.coeffs.length
      (fun seg => segmentQuadraticIntegral s W seg n) (fun a => segMat s W.get a n) _ hseg
      (SBM.new (layout D s.coeffs.length) (layout D s.coeffs.length))
      (new_wf (layout_mono _ _) (layout_mono _ _)) rfl rfl
    refine ⟨Q, A, ?_, hA, wA, rA, cA, ⟨?_, ?_, ?_⟩⟩
    · simp only [curveQuadraticIntegral, hr, hc, ne_eq, not_true_eq_false, if_false]
      exact hQ
    · rw [rA, layout_total]
    · rw [cA, layout_total]
    · intro r c x y h1 h2 h3 h4
      rw [rA] at h1 h3 ⊢
      rw [cA] at h2 h4 ⊢
      rw [layout_length] at h1 h2
      rw [layout_size _ _ h1] at h3
      rw [layout_size _ _ h2] at h4
      rw [layout_base _ _ h1.le, layout_base _ _ h2.le, vA]
      dsimp only
      rw [vQ]
      congr 1
      · simp [Sparse.val, new_blk]
      · refine congrArg _ (List.map_congr_left fun a _ => ?_)
        have g : ∀ b z : Nat, z < D → ((a * D ≤ b * D + z ∧ b * D + z < a * D + s.order * D) ↔
            (a ≤ b ∧ b < a + s.order)) := by
          intro b z hz
          rw [← Nat.add_mul]
          constructor
          · rintro ⟨p, q⟩
            constructor
            · by_contra hlt
              have := Nat.mul_le_mul_right D (show b + 1 ≤ a by omega)
              rw [Nat.succ_mul] at this
              omega
            · by_contra hlt
              have := Nat.mul_le_mul_right D (show a + s.order ≤ b by omega)
              omega
          · rintro ⟨p, q⟩
            have h1 := Nat.mul_le_mul_right D p
            have h2 := Nat.mul_le_mul_right D (show b + 1 ≤ a + s.order by omega)
            rw [Nat.succ_mul] at h2
            omega
        have gr := g r x h3
        have gc := g c y h4
        by_cases hin : a ≤ r ∧ r < a + s.order ∧ a ≤ c ∧ c < a + s.order
        · rw [if_pos hin, if_pos ⟨(gr.2 ⟨hin.1, hin.2.1⟩).1, (gr.2 ⟨hin.1, hin.2.1⟩).2, gc.2 hin.2.2⟩]
          have e : ∀ b z : Nat, a ≤ b → b * D + z - a * D = (b - a) * D + z := by
            intro b z hb
            rw [Nat.sub_mul]
            have := Nat.mul_le_mul_right D hb
            omega
          rw [e r x hin.1, e c y hin.2.2.1]
        · rw [if_neg hin, if_neg]
          rintro ⟨p1, p2, p3⟩
          exact hin ⟨(gr.1 ⟨p1, p2⟩).1, (gr.1 ⟨p1, p2⟩).2, gc.1 p3⟩
  · right
    obtain ⟨m, hm⟩ : ∃ m, numValidTimeSegments s.order s.knots.length = m + 1 :=
      ⟨s.knots.length - 2 * s.order, by unfold numValidTimeSegments; omega⟩
    have hb := basis_length w
    have hraise : segmentQuadraticIntegral s W 0 n = .raise := by
      rw [segmentQuadraticIntegral, if_neg (by omega)]
      by_cases h1 : W.rows = D
      · by_cases h2 : W.cols = D
        · have h3 : ¬nearSymmetric D W := fun h => hW ⟨h1, h2, h⟩
          simp only [h1, h2, Dii, Vi, Mi, if_neg (show ¬s.basis.length ≤ 0 by omega),
            if_neg (show ¬numValidTimeSegments s.order s.knots.length ≤ 0 by omega),
            timeInterval_ok w (show 0 < _ by omega), basis_some w (show 0 < _ by omega), if_neg h3, ne_eq,
            not_true_eq_false, if_false, Out.ok_bind, Out.pure_eq]
        · rw [if_neg (not_not.2 h1), if_pos h2]
      · rw [if_pos h1]
    constructor
    · unfold curveQuadraticIntegral
      split_ifs <;> try rfl
      rw [hm, List.range_succ_eq_map, denseLoop, hraise]
      rfl
    · unfold curveQuadraticIntegralSparse
      rw [hm, List.range_succ_eq_map, sparseLoop, hraise]
      rfl

/-- **C101** (what is rejected).  The functions raise exactly when the weight matrix is not square of the size
of a coefficient or is not symmetric up to the tolerance. -/
theorem C101_rejects (w : WellFormed s) (W : Mat K) (n : Nat) :
    curveQuadraticIntegral s W n = .raise ↔
      ¬(W.rows = D ∧ W.cols = D ∧ ∀ r, r < D → ∀ c, c < D → |W.get c r - W.get r c| ≤ 1 / 10 ^ 14) := by
  have hk := w.order_ge; have hn := w.enough
  have et : (1 / 10 ^ 14 : K) = symTol := by unfold symTol; norm_num
  constructor
  · rintro h ⟨hr, hc, hs⟩
    obtain ⟨Q, hQ, -⟩ := denseLoop_ok (D := D) s.order s.coeffs.length
      (fun seg => segmentQuadraticIntegral s W seg n) (fun a => segMat s W.get a n)
      (List.range (numValidTimeSegments s.order s.knots.length))
      (fun a ha => ⟨segment_ok w hr hc (by rw [et] at hs; exact hs) n (List.mem_range.1 ha),
        numValid_cols w (List.mem_range.1 ha)⟩) fun _ _ => 0
    simp only [curveQuadraticIntegral, hr, hc, ne_eq, not_true_eq_false, if_false] at h
    rw [hQ] at h
    cases h
  · intro h
    rcases C101_sparse w W n with ⟨Q, A, hQ, -⟩ | ⟨h1, -⟩
    · exfalso
      apply h
      rw [et]
      obtain ⟨m, hm⟩ : ∃ m, numValidTimeSegments s.order s.knots.length = m + 1 :=
        ⟨s.knots.length - 2 * s.order, by unfold numValidTimeSegments; omega⟩
      have hb := basis_length w
      by_contra hW
      unfold curveQuadraticIntegral at hQ
      split_ifs at hQ with h1 h2
      rw [hm, List.range_succ_eq_map, denseLoop] at hQ
      have h3 : ¬nearSymmetric D W := fun h => hW ⟨not_not.1 h1, not_not.1 h2, h⟩
      have hraise : segmentQuadraticIntegral s W 0 n = .raise := by
        rw [segmentQuadraticIntegral, if_neg (by omega), if_neg h1, if_neg h2]
        simp only [Dii, Vi, Mi, if_neg (show ¬s.basis.length ≤ 0 by omega),
            if_neg (show ¬numValidTimeSegments s.order s.knots.length ≤ 0 by omega),
            timeInterval_ok w (show 0 < _ by omega), basis_some w (show 0 < _ by omega), if_neg h3,
            Out.ok_bind, Out.pure_eq]
      rw [hraise] at hQ
      cases hQ
    · exact h1

/-- The diagonal matrix of a list of weights. -/
def diagMat (D : Nat) (v : List K) : Mat K := ⟨D, D, fun a b => if a = b then v.getD a 0 else 0⟩

theorem diag_near (v : List K) : nearSymmetric D (diagMat D v) := by
  intro r _ c _
  have h0 : (0 : K) ≤ symTol := by unfold symTol; positivity
  rcases eq_or_ne r c with rfl | h
  · simpa using h0
  · simpa [diagMat, h, h.symm] using h0

/-- **C101** (diagonal weights).  The variants for diagonal weights return what the general functions return for
the diagonal matrix, and raise exactly when the number of weights is not the size of a coefficient. -/
theorem C101_diag (w : WellFormed s) (v : List K) (n : Nat) :
    (v.length = D → curveQuadraticIntegralDiag s v n = curveQuadraticIntegral s (diagMat D v) n ∧
      curveQuadraticIntegralDiagSparse s v n = curveQuadraticIntegralSparse s (diagMat D v) n) ∧
    (v.length ≠ D → curveQuadraticIntegralDiag s v n = .raise ∧
      curveQuadraticIntegralDiagSparse s v n = .raise) := by
  have hk := w.order_ge; have hn := w.enough
  constructor
  · intro hv
    have e : ∀ a ∈ List.range (numValidTimeSegments s.order s.knots.length),
        segmentQuadraticIntegralDiag s v a n = segmentQuadraticIntegral s (diagMat D v) a n := by
      intro a ha
      rw [segment_diag_ok w hv n (List.mem_range.1 ha),
        segment_ok w (W := diagMat D v) rfl rfl (diag_near v) n (List.mem_range.1 ha)]
      rfl
    constructor
    · simp only [curveQuadraticIntegralDiag, curveQuadraticIntegral, hv, ne_eq, not_true_eq_false, if_false,
        show (diagMat D v).rows = D from rfl, show (diagMat D v).cols = D from rfl]
      generalize List.range (numValidTimeSegments s.order s.knots.length) = l at e
      generalize (fun _ _ => 0 : Nat → Nat → K) = Q
      induction l generalizing Q with
      | nil => rfl
      | cons a l ih =>
        simp only [denseLoop, e a (by simp)]
        congr 1
        funext B
        split_ifs
        · rfl
        · exact ih (fun b hb => e b (by simp [hb])) _
    · simp only [curveQuadraticIntegralDiagSparse, curveQuadraticIntegralSparse]
      generalize List.range (numValidTimeSegments s.order s.knots.length) = l at e
      generalize SBM.new (K := K) (layout D s.coeffs.length) (layout D s.coeffs.length) = A
      induction l generalizing A with
      | nil => rfl
      | cons a l ih =>
        simp only [sparseLoop, e a (by simp)]
        congr 1
        funext B
        split_ifs
        · rfl
        · exact ih (fun b hb => e b (by simp [hb])) _
  · intro hv
    obtain ⟨m, hm⟩ : ∃ m, numValidTimeSegments s.order s.knots.length = m + 1 :=
      ⟨s.knots.length - 2 * s.order, by unfold numValidTimeSegments; omega⟩
    have hb := basis_length w
    have hraise : segmentQuadraticIntegralDiag s v 0 n = .raise := by
      rw [segmentQuadraticIntegralDiag, if_neg (by omega), if_pos hv]
    constructor
    · rw [curveQuadraticIntegralDiag, if_pos hv]
    · unfold curveQuadraticIntegralDiagSparse
      rw [hm, List.range_succ_eq_map, sparseLoop, hraise]
      rfl

end Field

section Real

variable {D : Nat} {s : Spline ℝ D}

theorem withCoeffs_wf (w : WellFormed s) (x : Nat → ℝ) : WellFormed (withCoeffs s x) :=
  ⟨w.order_ge, w.enough, by simpa [withCoeffs, unstack] using w.count, w.basis_eq, w.sorted⟩

theorem stacked_unstack {N : Nat} (x : Nat → ℝ) {i : Nat} (h : i < N * D) : stacked (unstack D N x) i = x i := by
  have hD : 0 < D := by
    rcases Nat.eq_zero_or_pos D with h0 | h0
    · rw [h0] at h; simp at h
    · exact h0
  have hm : i % D < D := Nat.mod_lt _ hD
  have hd : i / D < N := Nat.div_lt_of_lt_mul (by rwa [mul_comm])
  rw [stacked, dif_pos hm]
  simp only [unstack, List.getD_eq_getElem?_getD, List.getElem?_map, List.getElem?_range hd, Option.map_some,
    Option.getD_some]
  rw [mul_comm, Nat.div_add_mod]

/-- **C101** (the integral).  For every well-formed spline, every weight matrix that is accepted and every order
of the derivative, the quadratic form of the returned matrix at a coefficient vector is the integral, over the
valid time, of the weighted squared derivative of the curve with these coefficients. -/
theorem C101_integral (w : WellFormed s) (W : Mat ℝ) (n : Nat) {Q : Nat → Nat → ℝ}
    (h : curveQuadraticIntegral s W n = .ok Q) (x : Nat → ℝ) :
    ∑ i ∈ range (s.coeffs.length * D), ∑ j ∈ range (s.coeffs.length * D), x i * Q i j * x j =
      motionIntegral (withCoeffs s x) W n := by
  have hW : W.rows = D ∧ W.cols = D ∧ nearSymmetric D W := by
    by_contra hW
    have et : (1 / 10 ^ 14 : ℝ) = symTol := by unfold symTol; norm_num
    have : curveQuadraticIntegral s W n = .raise := (C101_rejects w W n).2 (by rw [et]; exact hW)
    rw [this] at h
    cases h
  obtain ⟨hr, hc, hs⟩ := hW
  obtain ⟨Q', hQ, vQ⟩ := denseLoop_ok (D := D) s.order s.coeffs.length
    (fun seg => segmentQuadraticIntegral s W seg n) (fun a => segMat s W.get a n)
    (List.range (numValidTimeSegments s.order s.knots.length))
    (fun a ha => ⟨segment_ok w hr hc hs n (List.mem_range.1 ha), numValid_cols w (List.mem_range.1 ha)⟩)
    fun _ _ => 0
  simp only [curveQuadraticIntegral, hr, hc, ne_eq, not_true_eq_false, if_false] at h
  rw [hQ, Out.ok.injEq] at h
  subst h
  have e : quad (s.coeffs.length * D) Q' x = ((List.range (numValidTimeSegments s.order s.knots.length)).map
      fun seg => quad (D * s.order) (segMat s W.get seg n) (window D seg x)).sum := by
    have : Q' = fun i j => ((List.range (numValidTimeSegments s.order s.knots.length)).map fun a =>
        if a * D ≤ i ∧ i < a * D + s.order * D ∧ a * D ≤ j ∧ j < a * D + s.order * D then
          segMat s W.get a n (i - a * D) (j - a * D) else 0).sum := by
      funext i j
      rw [vQ, zero_add]
    rw [this, quad_list]
    refine congrArg _ (List.map_congr_left fun a ha => ?_)
    have hb := Nat.mul_le_mul_right D (numValid_cols w (List.mem_range.1 ha))
    rw [Nat.add_mul] at hb
    rw [quad_block _ _ _ hb, mul_comm s.order D]
    rfl
  change quad _ _ _ = _
  rw [e, ← sum_segments (withCoeffs_wf w x) W n]
  refine congrArg _ (List.map_congr_left fun a ha => ?_)
  have hb := Nat.mul_le_mul_right D (numValid_cols w (List.mem_range.1 ha))
  rw [Nat.add_mul] at hb
  refine quad_congr (n := D * s.order) (segMat s W.get a n) fun i hi => ?_
  rw [mul_comm] at hi
  rw [window, window, show (withCoeffs s x).coeffs = unstack D s.coeffs.length x from rfl,
    stacked_unstack x (by omega)]

/-- **C101** (existence).  Every symmetric weight matrix of the right size is accepted. -/
theorem C101_accepts (w : WellFormed s) (W : Mat ℝ) (hr : W.rows = D) (hc : W.cols = D)
    (hs : ∀ r c, W.get r c = W.get c r) (n : Nat) :
    ∃ Q A, curveQuadraticIntegral s W n = .ok Q ∧ curveQuadraticIntegralSparse s W n = .ok A := by
  rcases C101_sparse w W n with ⟨Q, A, hQ, hA, -⟩ | ⟨h1, -⟩
  · exact ⟨Q, A, hQ, hA⟩
  · exact absurd ⟨hr, hc, fun r _ c _ => by rw [hs, sub_self, abs_zero]; positivity⟩ ((C101_rejects w W n).1 h1)

/-- A spline meets the hypotheses: order 3, knots that are not equally spaced and repeat. -/
example (n : Nat) : ∃ Q A, curveQuadraticIntegral rSpline ⟨1, 1, fun _ _ => 2⟩ n = .ok Q ∧
    curveQuadraticIntegralSparse rSpline ⟨1, 1, fun _ _ => 2⟩ n = .ok A :=
  C101_accepts rSpline_wf _ rfl rfl (fun _ _ => rfl) n

end Real

end Kalibr.Motion
