import Verif.Fit.Extend
import Verif.Motion.Props
import Mathlib.Analysis.InnerProductSpace.Symmetric
import Mathlib.Analysis.InnerProductSpace.PiL2
import Mathlib.Analysis.Matrix.Hermitian

/-! C114: the spline that `initSpline3`, `initSplineSparse` and `initSplineSparseKnots` build minimises the
cost over all coefficients. -/

namespace Kalibr.Fit

open BSpline Motion Finset

/-! ## Quadratic functions -/

section Quadratic

/-- A solution of the normal equations minimises the cost. -/
theorem quad_min {n m : Nat} {A : Nat → Nat → ℝ} {b : Nat → ℝ} {Q : Nat → Nat → ℝ}
    (hs : ∀ i j, i < n → j < n → Q i j = Q j i)
    (hp : ∀ x : Nat → ℝ, 0 ≤ ∑ i ∈ range n, ∑ j ∈ range n, x i * Q i j * x j) {x : Nat → ℝ}
    (hx : Solves n (fun i j => gram m A i j + Q i j) x (gramRhs m A b)) (y : Nat → ℝ) :
    (∑ a ∈ range m, (∑ j ∈ range n, A a j * x j - b a) ^ 2) + ∑ i ∈ range n, ∑ j ∈ range n, x i * Q i j * x j ≤
    (∑ a ∈ range m, (∑ j ∈ range n, A a j * y j - b a) ^ 2) + ∑ i ∈ range n, ∑ j ∈ range n, y i * Q i j * y j := by
  set z : Nat → ℝ := fun i => y i - x i with hz
  have hyz : ∀ i, y i = x i + z i := fun i => by rw [hz]; ring
  have hA : ∀ a, ∑ j ∈ range n, A a j * y j = ∑ j ∈ range n, A a j * x j + ∑ j ∈ range n, A a j * z j := by
    intro a
    rw [← sum_add_distrib]
    exact sum_congr rfl fun j _ => by rw [hyz]; ring
  -- the cross terms vanish
  have hcross : (∑ a ∈ range m, (∑ j ∈ range n, A a j * x j - b a) * ∑ j ∈ range n, A a j * z j) +
      ∑ i ∈ range n, ∑ j ∈ range n, z i * Q i j * x j = 0 := by
    have h1 : ∀ i ∈ range n, z i * (∑ a ∈ range m, A a i * (∑ j ∈ range n, A a j * x j - b a) +
        ∑ j ∈ range n, Q i j * x j) = 0 := by
      intro i hi
      have := hx i (by simpa using hi)
      simp only [add_mul, sum_add_distrib] at this
      rw [gram_mul] at this
      unfold gramRhs at this
      simp only [mul_sub, sum_sub_distrib]
      rw [← mul_zero (z i)]
      congr 1
      linarith
    have h2 := sum_eq_zero h1
    simp only [mul_add, sum_add_distrib, mul_sum] at h2
    rw [sum_comm] at h2
    rw [← h2]
    congr 1
    · apply sum_congr rfl
      intro a _
      rw [mul_sum]
      exact sum_congr rfl fun i _ => by ring
    · exact sum_congr rfl fun i _ => sum_congr rfl fun j _ => by ring
  have hsym : ∑ i ∈ range n, ∑ j ∈ range n, x i * Q i j * z j = ∑ i ∈ range n, ∑ j ∈ range n, z i * Q i j * x j := by
    rw [sum_comm]
    apply sum_congr rfl
    intro i hi
    apply sum_congr rfl
    intro j hj
    rw [hs j i (by simpa using hj) (by simpa using hi)]
    ring
  have hq : ∑ i ∈ range n, ∑ j ∈ range n, y i * Q i j * y j =
      (∑ i ∈ range n, ∑ j ∈ range n, x i * Q i j * x j) + 2 * (∑ i ∈ range n, ∑ j ∈ range n, z i * Q i j * x j) +
      ∑ i ∈ range n, ∑ j ∈ range n, z i * Q i j * z j := by
    have : ∀ i j, y i * Q i j * y j = x i * Q i j * x j + x i * Q i j * z j + z i * Q i j * x j +
        z i * Q i j * z j := by
      intro i j
      rw [hyz, hyz j]
      ring
    simp only [this, sum_add_distrib]
    rw [hsym]
    ring
  have hr : ∑ a ∈ range m, (∑ j ∈ range n, A a j * y j - b a) ^ 2 =
      (∑ a ∈ range m, (∑ j ∈ range n, A a j * x j - b a) ^ 2) +
      2 * (∑ a ∈ range m, (∑ j ∈ range n, A a j * x j - b a) * ∑ j ∈ range n, A a j * z j) +
      ∑ a ∈ range m, (∑ j ∈ range n, A a j * z j) ^ 2 := by
    rw [mul_sum, ← sum_add_distrib, ← sum_add_distrib]
    exact sum_congr rfl fun a _ => by rw [hA]; ring
  have h3 := hp z
  have h4 : 0 ≤ ∑ a ∈ range m, (∑ j ∈ range n, A a j * z j) ^ 2 := sum_nonneg fun a _ => sq_nonneg _
  rw [hq, hr]
  linarith

/-- A symmetric system is consistent when the right hand side is orthogonal to the kernel. -/
theorem consistent {n : Nat} {N : Nat → Nat → ℝ} (hs : ∀ i j, i < n → j < n → N i j = N j i) {c : Nat → ℝ}
    (h : ∀ x : Nat → ℝ, Solves n N x (fun _ => 0) → ∑ i ∈ range n, c i * x i = 0) : ∃ x, Solves n N x c := by
  classical
  let M : Matrix (Fin n) (Fin n) ℝ := Matrix.of fun i j => N i j
  have hM : M.IsHermitian := by
    ext i j
    simp only [Matrix.conjTranspose_apply, M, Matrix.of_apply, star_trivial]
    exact hs _ _ j.2 i.2
  let T := Matrix.toEuclideanLin M
  have hT : T.IsSymmetric := Matrix.isSymmetric_toEuclideanLin_iff.2 hM
  let cv : EuclideanSpace ℝ (Fin n) := WithLp.toLp 2 fun i => c i
  have hT' : ∀ (v : EuclideanSpace ℝ (Fin n)) (i : Fin n), (T v) i = ∑ j : Fin n, N i j * v j := by
    intro v i
    show (Matrix.mulVec M v) i = _
    rfl
  have hmem : cv ∈ LinearMap.range T := by
    have h1 : (LinearMap.range T)ᗮᗮ = LinearMap.range T := Submodule.orthogonal_orthogonal _
    rw [← h1, hT.orthogonal_range, Submodule.mem_orthogonal]
    intro v hv
    have hv0 : T v = 0 := hv
    have := h (fun j => if hj : j < n then v ⟨j, hj⟩ else 0) (by
      intro i hi
      rw [Finset.sum_range]
      have := congrArg (fun w : EuclideanSpace ℝ (Fin n) => w ⟨i, hi⟩) hv0
      simp only [hT'] at this
      simpa using this)
    rw [Finset.sum_range] at this
    rw [PiLp.inner_apply]
    simpa [cv] using this
  obtain ⟨v, hv⟩ := hmem
  refine ⟨fun j => if hj : j < n then v ⟨j, hj⟩ else 0, ?_⟩
  intro i hi
  rw [Finset.sum_range]
  have := congrArg (fun w : EuclideanSpace ℝ (Fin n) => w ⟨i, hi⟩) hv
  simp only [hT'] at this
  simpa [cv] using this

theorem gram_symm (m : Nat) (A : Nat → Nat → ℝ) (i j : Nat) : gram m A i j = gram m A j i := by
  unfold gram
  exact sum_congr rfl fun a _ => by ring

/-- The normal equations are positive semidefinite and consistent. -/
theorem normal_ok {n m : Nat} {A : Nat → Nat → ℝ} (b : Nat → ℝ) {Q : Nat → Nat → ℝ}
    (hs : ∀ i j, i < n → j < n → Q i j = Q j i)
    (hp : ∀ x : Nat → ℝ, 0 ≤ ∑ i ∈ range n, ∑ j ∈ range n, x i * Q i j * x j) :
    PosSemidef n (fun i j => gram m A i j + Q i j) ∧
    ∃ x, Solves n (fun i j => gram m A i j + Q i j) x (gramRhs m A b) := by
  have hform : ∀ x : Nat → ℝ, ∑ i ∈ range n, ∑ j ∈ range n, x i * (gram m A i j + Q i j) * x j =
      (∑ a ∈ range m, (∑ j ∈ range n, A a j * x j) ^ 2) + ∑ i ∈ range n, ∑ j ∈ range n, x i * Q i j * x j := by
    intro x
    rw [← gram_quad, ← sum_add_distrib]
    apply sum_congr rfl
    intro i _
    rw [mul_sum, ← sum_add_distrib]
    exact sum_congr rfl fun j _ => by ring
  have hsym : ∀ i j, i < n → j < n → gram m A i j + Q i j = gram m A j i + Q j i := by
    intro i j hi hj
    rw [gram_symm, hs i j hi hj]
  refine ⟨⟨hsym, fun x => ?_⟩, consistent hsym fun x hx => ?_⟩
  · rw [hform]
    exact add_nonneg (sum_nonneg fun a _ => sq_nonneg _) (hp x)
  · have h0 : ∑ i ∈ range n, ∑ j ∈ range n, x i * (gram m A i j + Q i j) * x j = 0 := by
      apply sum_eq_zero
      intro i hi
      have := hx i (by simpa using hi)
      simp only at this
      rw [← mul_zero (x i), ← this, mul_sum]
      exact sum_congr rfl fun j _ => by ring
    rw [hform] at h0
    have h1 : ∑ a ∈ range m, (∑ j ∈ range n, A a j * x j) ^ 2 = 0 := by
      have h2 : 0 ≤ ∑ a ∈ range m, (∑ j ∈ range n, A a j * x j) ^ 2 := sum_nonneg fun a _ => sq_nonneg _
      have := hp x
      linarith
    have h3 := (sum_eq_zero_iff_of_nonneg (fun a _ => sq_nonneg _)).1 h1
    unfold gramRhs
    simp only [sum_mul]
    rw [sum_comm]
    apply sum_eq_zero
    intro a ha
    have : ∑ j ∈ range n, A a j * x j = 0 := pow_eq_zero_iff (two_ne_zero) |>.1 (h3 a ha)
    rw [← mul_zero (b a), ← this, mul_sum]
    exact sum_congr rfl fun j _ => by ring

end Quadratic

/-! ## The matrix of the motion term is symmetric -/

section Symmetric

variable {K : Type} [Field K] [LinearOrder K] [IsStrictOrderedRing K] {D : Nat} {s : Spline K D}

theorem mmul_symm (n : Nat) (B V : Nat → Nat → K) (hV : ∀ i j, V i j = V j i) (i j : Nat) :
    mmul n (mmul n (tr B) V) B i j = mmul n (mmul n (tr B) V) B j i := by
  unfold mmul tr
  simp only [sum_mul]
  rw [sum_comm]
  apply sum_congr rfl
  intro a _
  apply sum_congr rfl
  intro c _
  rw [hV]
  ring

theorem derive_symm (k : Nat) (B : Nat → Nat → K) (n : Nat) (V : Nat → Nat → K) (hV : ∀ i j, V i j = V j i) :
    ∀ i j, derive k B n V i j = derive k B n V j i := by
  induction n generalizing V with
  | zero => exact hV
  | succ n ih => exact ih _ (mmul_symm k B V hV)

theorem segMat_symm (W : Nat → Nat → K) (hW : ∀ i j, W i j = W j i) (seg n i j : Nat) :
    segMat s W seg n i j = segMat s W seg n j i := by
  unfold segMat
  apply mmul_symm
  intro a b
  rw [hW, derive_symm]
  intro r c
  unfold powMat
  rw [Nat.add_comm]

theorem integral_symm (w : WellFormed s) (W : Mat K) (hW : ∀ i j, W.get i j = W.get j i) (n : Nat)
    {Q : Nat → Nat → K} (h : curveQuadraticIntegral s W n = .ok Q) (i j : Nat) : Q i j = Q j i := by
  by_cases hr : W.rows = D ∧ W.cols = D ∧ nearSymmetric D W
  · obtain ⟨hr, hc, hs⟩ := hr
    obtain ⟨Q', hQ, vQ⟩ := denseLoop_ok (D := D) s.order s.coeffs.length
      (fun seg => segmentQuadraticIntegral s W seg n) (fun a => segMat s W.get a n)
      (List.range (numValidTimeSegments s.order s.knots.length))
      (fun a ha => ⟨segment_ok w hr hc hs n (List.mem_range.1 ha), numValid_cols w (List.mem_range.1 ha)⟩)
      fun _ _ => 0
    simp only [curveQuadraticIntegral, hr, hc, ne_eq, not_true_eq_false, if_false] at h
    rw [hQ, Out.ok.injEq] at h
    subst h
    rw [vQ, vQ]
    congr 1
    refine congrArg _ (List.map_congr_left fun a _ => ?_)
    by_cases hc : a * D ≤ i ∧ i < a * D + s.order * D ∧ a * D ≤ j ∧ j < a * D + s.order * D
    · rw [if_pos hc, if_pos ⟨hc.2.2.1, hc.2.2.2, hc.1, hc.2.1⟩, segMat_symm _ hW]
    · rw [if_neg hc, if_neg fun h => hc ⟨h.2.2.1, h.2.2.2, h.1, h.2.1⟩]
  · have et : (1 / 10 ^ 14 : K) = symTol := by unfold symTol; norm_num
    have : curveQuadraticIntegral s W n = .raise := (C101_rejects w W n).2 (by rw [et]; exact hr)
    rw [this] at h
    cases h

end Symmetric

/-! ## The rows of the data -/

section Rows

variable {D : Nat} {s : Spline ℝ D}

/-- The block row of one point: the spline with other coefficients has, at the time, the value given by the row. -/
structure RowOf (s : Spline ℝ D) (q : ℝ × (Fin D → ℝ)) (R : Row ℝ D) : Prop where
  fits : R.start + s.order ≤ s.coeffs.length
  rhs : R.rhs = q.2
  weights : ∃ W, HasWeights s.order R W ∧ ∀ x : Nat → ℝ, evalD (withCoeffs s x) q.1 0 =
    .ok fun e => ∑ c ∈ range s.order, W c * x ((R.start + c) * D + e)

theorem fitRows_ok (w : WellFormed s) {lo hi : ℝ} (hlo : tMin s = .ok lo) (hhi : tMax s = .ok hi)
    (data : List (ℝ × (Fin D → ℝ))) (h : ∀ q ∈ data, lo ≤ q.1 ∧ q.1 ≤ hi) :
    ∃ rows, fitRows s s.coeffs.length data = .ok rows ∧ List.Forall₂ (RowOf s) data rows := by
  induction data with
  | nil => exact ⟨[], rfl, List.Forall₂.nil⟩
  | cons q rest ih =>
    obtain ⟨rows, h1, h2⟩ := ih fun q hq => h q (by simp [hq])
    obtain ⟨a1, a2⟩ := h q (by simp)
    obtain ⟨p, hp⟩ := accepted w hlo hhi a1 a2
    obtain ⟨l1, l2⟩ := localIndex_of w hp
    obtain ⟨t, pt⟩ := q
    simp only at hp l1 a1 a2
    refine ⟨⟨p.2 + 1 - s.order, phiOf D s.order (weights s.order (basisM (knotAt s.knots) s.order p.2)
      (computeU (knotAt s.knots) s.order (normTime s t p.2) p.2 0)), pt⟩ :: rows, ?_, ?_⟩
    · unfold fitRows row phi
      rw [l1, localBi_of w hp]
      simp only [Out.ok_bind, Out.pure_eq]
      rw [if_neg (by omega), h1]
      rfl
    · refine List.Forall₂.cons ⟨l2, rfl, _, phi_weights, fun x => ?_⟩ h2
      have hp' : computeTIndex (withCoeffs s x) t = .ok p := hp
      show evalD (withCoeffs s x) t 0 = _
      rw [evalD_of (withCoeffs_wf w x) hp']
      congr 1
      funext e
      apply sum_congr rfl
      intro c hc
      have hc : c < s.order := by
        have : c < (withCoeffs s x).order := by simpa using hc
        exact this
      show (unstack D s.coeffs.length x).getD (p.2 + 1 - s.order + c) 0 e * _ = _
      rw [mul_comm]
      congr 1
      unfold unstack
      rw [List.getD_eq_getElem?_getD, List.getElem?_map, List.getElem?_range (by omega)]
      rfl

theorem rows_cost {data : List (ℝ × (Fin D → ℝ))} {rows : List (Row ℝ D)} (h : List.Forall₂ (RowOf s) data rows)
    (x : Nat → ℝ) :
    (data.map fun q => missSq (withCoeffs s x) q.1 q.2).sum =
      ∑ a ∈ range (rows.length * D), (∑ j ∈ range (s.coeffs.length * D), denseA s.order rows a j * x j -
        denseB rows a) ^ 2 := by
  have hl := h.length_eq
  rw [sum_range_mul, ← Fin.sum_univ_fun_getElem, ← hl, Finset.sum_range]
  apply sum_congr rfl
  intro r _
  have hr := (List.forall₂_iff_get.1 h).2 r r.2 (by rw [← hl]; exact r.2)
  simp only [List.get_eq_getElem] at hr
  obtain ⟨W, hW, hv⟩ := hr.weights
  have hg : rows[(r : Nat)]? = some rows[(r : Nat)] := by simp
  unfold missSq
  rw [hv x, Finset.sum_range]
  apply sum_congr rfl
  intro e _
  rw [denseA_row hg rfl hW hr.fits e x, denseB_row hg e, hr.rhs]

end Rows

/-! ## C114 -/

section Fit

variable {D : Nat} {s : Spline ℝ D}

theorem diag_replicate (lam : ℝ) : ∀ i j, i < D → j < D →
    (diagMat D (List.replicate D lam)).get i j = (scalarMat D lam).get i j := by
  intro i j hi _
  simp [diagMat, scalarMat, List.getD_eq_getElem?_getD, hi]

theorem density_diag (x : Nat → ℝ) (lam : ℝ) (n : Nat) :
    motionIntegral (withCoeffs s x) (diagMat D (List.replicate D lam)) n =
      motionIntegral (withCoeffs s x) (scalarMat D lam) n := by
  unfold motionIntegral motionDensity
  congr 1
  funext t
  exact sum_congr rfl fun d _ => sum_congr rfl fun e _ => by rw [diag_replicate lam d e d.2 e.2]

theorem integral_nonneg (w : WellFormed s) (lam : ℝ) (hlam : 0 ≤ lam) (n : Nat) :
    0 ≤ motionIntegral s (scalarMat D lam) n := by
  have hk := w.order_ge; have hn := w.enough
  unfold motionIntegral
  apply intervalIntegral.integral_nonneg (w.sorted _ _ (by omega) (by omega))
  intro t _
  unfold motionDensity
  apply sum_nonneg
  intro d _
  rw [sum_eq_single d]
  · simp only [scalarMat, if_true]
    have := mul_nonneg hlam (sq_nonneg (iteratedDeriv n (curve s d) t))
    calc (0 : ℝ) ≤ _ := this
      _ = _ := by ring
  · intro e _ hne
    have : (d : Nat) ≠ e := fun h => hne (Fin.ext h.symm)
    simp [scalarMat, this]
  · simp

/-- Setting the coefficients to a vector. -/
theorem set_fit (w : WellFormed s) (x : Nat → ℝ) :
    ∃ s', setCoefficientVector s (toVec (s.coeffs.length * D) x) = .ok s' ∧ WellFormed s' ∧ s'.order = s.order ∧
      s'.knots = s.knots ∧ s' = withCoeffs s x ∧ ∀ y, withCoeffs s' y = withCoeffs s y := by
  obtain ⟨s', g1, g2, g3, g4, g5, g6, g7⟩ := (C110_set (s := s) (toVec (s.coeffs.length * D) x)).2
    (by simp [toVec])
  have hwc : ∀ y, withCoeffs s' y = withCoeffs s y := by
    intro y
    unfold withCoeffs
    rw [g3]
    cases s; cases s'
    simp_all
  have hself : s' = withCoeffs s x := by
    have hc : s'.coeffs = unstack D s.coeffs.length x := by
      apply List.ext_getElem (by simp [g3, unstack])
      intro i h1 h2
      funext e
      have := g7 i (by omega) e
      rw [List.getD_eq_getElem?_getD, List.getElem?_eq_getElem h1] at this
      simp only [Option.getD_some] at this
      have hj : i * D + (e : Nat) < s.coeffs.length * D := by
        have := Nat.mul_le_mul_right D (show i + 1 ≤ s.coeffs.length by omega)
        rw [Nat.succ_mul] at this
        have := e.2
        omega
      have hu : (unstack D s.coeffs.length x)[i] = fun d : Fin D => x (i * D + d) := by
        apply Option.some.inj
        rw [← List.getElem?_eq_getElem h2]
        unfold unstack
        rw [List.getElem?_map, List.getElem?_range (by omega)]
        rfl
      rw [this, hu]
      simp [toVec, List.getD_eq_getElem?_getD, hj]
    unfold withCoeffs
    rw [← hc]
    cases s; cases s'
    simp_all
  have w' : WellFormed s' := by rw [hself]; exact withCoeffs_wf w x
  exact ⟨s', g1, w', g4, g5, hself, hwc⟩

/-- What both kinds of fit do after the knots are set. -/
theorem fit_min {sol : Solvers ℝ} (hx : Exact sol) (w : WellFormed s) {lo hi : ℝ} (hlo : tMin s = .ok lo)
    (hhi : tMax s = .ok hi) (data : List (ℝ × (Fin D → ℝ))) (h : ∀ q ∈ data, lo ≤ q.1 ∧ q.1 ≤ hi) {lam : ℝ}
    (hlam : 0 ≤ lam) (n : Nat) :
    ∃ rows Q S, fitRows s s.coeffs.length data = .ok rows ∧
      curveQuadraticIntegralDiag s (List.replicate D lam) n = .ok Q ∧
      curveQuadraticIntegralDiagSparse s (List.replicate D lam) n = .ok S ∧
      (∀ Q', Q' = Q ∨ Q' = S.toDense.get →
        PosSemidef (s.coeffs.length * D) (normalA s.order rows Q') ∧
        (∃ x, Solves (s.coeffs.length * D) (normalA s.order rows Q') x (normalB s.order rows)) ∧
        ∀ x, Solves (s.coeffs.length * D) (normalA s.order rows Q') x (normalB s.order rows) →
          ∃ s', setCoefficientVector s (toVec (s.coeffs.length * D) x) = .ok s' ∧ WellFormed s' ∧
            s'.order = s.order ∧ s'.knots = s.knots ∧
            ∀ y, fitCost s' data lam n ≤ fitCost (withCoeffs s' y) data lam n) := by
  obtain ⟨rows, hrows, hrel⟩ := fitRows_ok w hlo hhi data h
  obtain ⟨d1, d2⟩ := (C101_diag w (List.replicate D lam) n).1 (by simp)
  have hsymW : ∀ i j, (diagMat D (List.replicate D lam)).get i j = (diagMat D (List.replicate D lam)).get j i := by
    intro i j
    simp only [diagMat]
    by_cases hij : i = j
    · subst hij; rfl
    · rw [if_neg hij, if_neg fun h => hij h.symm]
  obtain ⟨Q, S, hQ, hS⟩ := C101_accepts w (diagMat D (List.replicate D lam)) rfl rfl hsymW n
  have hden : ∀ i j, i < s.coeffs.length * D → j < s.coeffs.length * D → S.toDense.get i j = Q i j := by
    rcases C101_sparse w (diagMat D (List.replicate D lam)) n with ⟨Q', S', e1, e2, wS, r1, r2, dS⟩ | ⟨e1, _⟩
    · rw [hQ] at e1; rw [hS] at e2
      cases e1; cases e2
      have dT := Sparse.toDense_denotes wS
      intro i j hi hj
      obtain ⟨a, ha, e, rfl⟩ := index_split hi
      obtain ⟨b, hb, f, rfl⟩ := index_split hj
      have g1 := dS.entry a b e f (by rw [r1, layout_length]; exact ha) (by rw [r2, layout_length]; exact hb)
        (by rw [r1, layout_size _ _ ha]; exact e.2) (by rw [r2, layout_size _ _ hb]; exact f.2)
      have g2 := dT.entry a b e f (by rw [r1, layout_length]; exact ha) (by rw [r2, layout_length]; exact hb)
        (by rw [r1, layout_size _ _ ha]; exact e.2) (by rw [r2, layout_size _ _ hb]; exact f.2)
      rw [r1, r2, layout_base _ _ ha.le, layout_base _ _ hb.le] at g1 g2
      rw [g2, ← g1]
    · rw [hQ] at e1; cases e1
  refine ⟨rows, Q, S, hrows, by rw [d1, hQ], by rw [d2, hS], ?_⟩
  intro Q' hQ'
  have hent : ∀ i j, i < s.coeffs.length * D → j < s.coeffs.length * D → Q' i j = Q i j := by
    intro i j hi hj
    rcases hQ' with rfl | rfl
    · rfl
    · exact hden i j hi hj
  have hint : ∀ x : Nat → ℝ, ∑ i ∈ range (s.coeffs.length * D), ∑ j ∈ range (s.coeffs.length * D),
      x i * Q' i j * x j = motionIntegral (withCoeffs s x) (scalarMat D lam) n := by
    intro x
    rw [← density_diag, ← C101_integral w _ n hQ x]
    apply sum_congr rfl
    intro i hi
    apply sum_congr rfl
    intro j hj
    rw [hent i j (by simpa using hi) (by simpa using hj)]
  have hs : ∀ i j, i < s.coeffs.length * D → j < s.coeffs.length * D → Q' i j = Q' j i := by
    intro i j hi hj
    rw [hent i j hi hj, hent j i hj hi]
    exact integral_symm w _ hsymW n hQ i j
  have hp : ∀ x : Nat → ℝ, 0 ≤ ∑ i ∈ range (s.coeffs.length * D), ∑ j ∈ range (s.coeffs.length * D),
      x i * Q' i j * x j := by
    intro x
    rw [hint]
    exact integral_nonneg (withCoeffs_wf w x) lam hlam n
  obtain ⟨n1, n2⟩ := normal_ok (m := rows.length * D) (A := denseA s.order rows) (denseB rows) hs hp
  refine ⟨n1, n2, fun x hsol => ?_⟩
  obtain ⟨s', g1, w', g4, g5, hself, hwc⟩ := set_fit w x
  refine ⟨s', g1, w', g4, g5, fun y => ?_⟩
  rw [hwc, hself]
  unfold fitCost
  rw [rows_cost hrel, rows_cost hrel, ← hint, ← hint]
  exact quad_min hs hp hsol y

/-- The knots of the fits with a number of segments. -/
theorem fitKnots_ok (hk : 2 ≤ s.order) {data : List (ℝ × (Fin D → ℝ))} {first last : ℝ × (Fin D → ℝ)}
    (hfirst : data.head? = some first) (hlast : data.getLast? = some last) (h2 : 2 ≤ data.length)
    (hsorted : (data.map Prod.fst).Pairwise (· ≤ ·)) {n : Nat} (hn : 1 ≤ n)
    (hlen : s.knots.length ≤ n + 2 * s.order - 1) :
    ∃ q, fitKnots s data n = .ok q ∧ WellFormed q ∧ q.order = s.order ∧ tMin q = .ok first.1 ∧
      tMax q = .ok last.1 ∧ numValidTimeSegments q.order q.knots.length = n ∧
      ∀ p ∈ data, first.1 ≤ p.1 ∧ p.1 ≤ last.1 := by
  have e0 : (data.map Prod.fst).getD 0 0 = first.1 := by
    rw [List.head?_eq_getElem?] at hfirst
    simp [List.getD_eq_getElem?_getD, hfirst]
  have e1 : (data.map Prod.fst).getD ((data.map Prod.fst).length - 1) 0 = last.1 := by
    rw [List.getLast?_eq_getElem?] at hlast
    simp [List.getD_eq_getElem?_getD, hlast]
  have hall : ∀ p ∈ data, first.1 ≤ p.1 ∧ p.1 ≤ last.1 := by
    have hs := (nondecreasing_iff (data.map Prod.fst)).1 hsorted
    intro p hp
    obtain ⟨i, hi, rfl⟩ := List.mem_iff_getElem.1 hp
    have hi' : knotAt (data.map Prod.fst) i = data[i].1 := by
      rw [knotAt_getElem _ _ (by simpa using hi)]; simp
    rw [← hi', ← e0, ← e1]
    refine ⟨hs 0 i (by omega) (by simpa using hi), hs i _ (by simp; omega) (by simp; omega)⟩
  have hle : first.1 ≤ last.1 := (hall last (List.mem_of_getLast? hlast)).1
  obtain ⟨q, g1, g2, g3, g4, g5, g6, g7, g8⟩ := set_uniform (s := s) hk hn hle hlen
    (c := List.replicate (numCoefficientsRequired s.order n) 0) (by simp)
  refine ⟨q, ?_, g2, g3, g6, g7, g8, hall⟩
  unfold fitKnots
  rw [if_neg (by omega), if_neg (by omega), if_neg (by unfold timesOk; simpa using hsorted)]
  simp only
  rw [e0, e1, g1]

/-- **C114** (dense).  For every list of at least two points with nondecreasing times, every number of segments
and every nonnegative factor `λ`, `initSpline3` on an object that does not have more knots than the new spline
succeeds: the valid times run from the first to the last time, there are as many segments as asked for, and no
other coefficients on the same knots have a smaller cost: the sum of the squared distances from the points plus
`λ` times the integral of the squared second derivative (the first one for order 2). -/
theorem C114_dense_partial {sol : Solvers ℝ} (hx : Exact sol) (hk : 2 ≤ s.order) {data : List (ℝ × (Fin D → ℝ))}
    {first last : ℝ × (Fin D → ℝ)} (hfirst : data.head? = some first) (hlast : data.getLast? = some last)
    (h2 : 2 ≤ data.length) (hsorted : (data.map Prod.fst).Pairwise (· ≤ ·)) {n : Nat} (hn : 1 ≤ n)
    (hlen : s.knots.length ≤ n + 2 * s.order - 1) {lam : ℝ} (hlam : 0 ≤ lam) :
    ∃ s', initSpline3 sol s data n lam = .ok s' ∧ WellFormed s' ∧ s'.order = s.order ∧
      tMin s' = .ok first.1 ∧ tMax s' = .ok last.1 ∧ numValidTimeSegments s'.order s'.knots.length = n ∧
      ∀ y, fitCost s' data lam (if s.order = 2 then 1 else 2) ≤
        fitCost (withCoeffs s' y) data lam (if s.order = 2 then 1 else 2) := by
  obtain ⟨q, g1, w, g3, g4, g5, g6, g7⟩ := fitKnots_ok hk hfirst hlast h2 hsorted hn hlen
  obtain ⟨rows, Q, S, r1, r2, _, r4⟩ := fit_min hx w g4 g5 data g7 hlam (if s.order = 2 then 1 else 2)
  obtain ⟨a1, a2, a3⟩ := r4 Q (Or.inl rfl)
  obtain ⟨s', b1, b2, b3, b4, b5⟩ := a3 _ (hx.ldlt _ _ _ a1 a2)
  refine ⟨s', ?_, b2, by rw [b3, g3], by rw [b2.tMin_eq, b3, b4, ← w.tMin_eq, g4],
    by rw [b2.tMax_eq, b3, b4, ← w.tMax_eq, g5], by rw [b3, b4, g6], b5⟩
  unfold initSpline3 fitDerivative
  rw [g1]
  simp only [Out.ok_bind, r1]
  rw [g3, r2, Out.ok_bind, ← g3]
  exact b1

theorem sparseFit_ok {sol : Solvers ℝ} (hx : Exact sol) (w : WellFormed s) {lo hi : ℝ} (hlo : tMin s = .ok lo)
    (hhi : tMax s = .ok hi) (data : List (ℝ × (Fin D → ℝ))) (h : ∀ q ∈ data, lo ≤ q.1 ∧ q.1 ≤ hi) {lam : ℝ}
    (hlam : 0 ≤ lam) :
    ∃ s', sparseFit sol s data lam = .ok s' ∧ WellFormed s' ∧ s'.order = s.order ∧ s'.knots = s.knots ∧
      ∀ y, fitCost s' data lam (if s.order = 2 then 1 else 2) ≤
        fitCost (withCoeffs s' y) data lam (if s.order = 2 then 1 else 2) := by
  obtain ⟨rows, Q, S, r1, _, r3, r4⟩ := fit_min hx w hlo hhi data h hlam (if s.order = 2 then 1 else 2)
  obtain ⟨a1, a2, a3⟩ := r4 _ (Or.inr rfl)
  unfold sparseFit fitDerivative
  simp only [r1, r3, Out.ok_bind]
  cases hch : sol.cholmod (s.coeffs.length * D) (normalA s.order rows S.toDense.get) (normalB s.order rows) with
  | some x =>
    simp only
    exact a3 x (hx.cholmod _ _ _ _ a1 hch)
  | none =>
    simp only
    exact a3 _ (hx.ldlt _ _ _ a1 a2)

/-- **C114** (sparse).  The same for `initSplineSparse`, whether or not the sparse factorisation succeeds. -/
theorem C114_sparse_partial {sol : Solvers ℝ} (hx : Exact sol) (hk : 2 ≤ s.order) {data : List (ℝ × (Fin D → ℝ))}
    {first last : ℝ × (Fin D → ℝ)} (hfirst : data.head? = some first) (hlast : data.getLast? = some last)
    (h2 : 2 ≤ data.length) (hsorted : (data.map Prod.fst).Pairwise (· ≤ ·)) {n : Nat} (hn : 1 ≤ n)
    (hlen : s.knots.length ≤ n + 2 * s.order - 1) {lam : ℝ} (hlam : 0 ≤ lam) :
    ∃ s', initSplineSparse sol s data n lam = .ok s' ∧ WellFormed s' ∧ s'.order = s.order ∧
      tMin s' = .ok first.1 ∧ tMax s' = .ok last.1 ∧ numValidTimeSegments s'.order s'.knots.length = n ∧
      ∀ y, fitCost s' data lam (if s.order = 2 then 1 else 2) ≤
        fitCost (withCoeffs s' y) data lam (if s.order = 2 then 1 else 2) := by
  obtain ⟨q, g1, w, g3, g4, g5, g6, g7⟩ := fitKnots_ok hk hfirst hlast h2 hsorted hn hlen
  obtain ⟨s', b1, b2, b3, b4, b5⟩ := sparseFit_ok hx w g4 g5 data g7 hlam
  refine ⟨s', ?_, b2, by rw [b3, g3], by rw [b2.tMin_eq, b3, b4, ← w.tMin_eq, g4],
    by rw [b2.tMax_eq, b3, b4, ← w.tMax_eq, g5], by rw [b3, b4, g6], by rw [← g3]; exact b5⟩
  unfold initSplineSparse
  rw [g1, Out.ok_bind, b1]

/-- **C114** (given knots).  `initSplineSparseKnots` keeps the nondecreasing knots it is given; for points whose
times are within the valid times of these knots, no other coefficients have a smaller cost. -/
theorem C114_knots_partial {sol : Solvers ℝ} (hx : Exact sol) (hk : 2 ≤ s.order) {data : List (ℝ × (Fin D → ℝ))}
    (h2 : 2 ≤ data.length) (hsorted : (data.map Prod.fst).Pairwise (· ≤ ·)) {knots : List ℝ}
    (hknots : knots.Pairwise (· ≤ ·)) (hmin : 2 * s.order ≤ knots.length) (hlen : s.knots.length ≤ knots.length)
    (htimes : ∀ q ∈ data, knots.getD (s.order - 1) 0 ≤ q.1 ∧ q.1 ≤ knots.getD (knots.length - s.order) 0)
    {lam : ℝ} (hlam : 0 ≤ lam) :
    ∃ s', initSplineSparseKnots sol s data knots lam = .ok s' ∧ WellFormed s' ∧ s'.order = s.order ∧
      s'.knots = knots ∧
      ∀ y, fitCost s' data lam (if s.order = 2 then 1 else 2) ≤
        fitCost (withCoeffs s' y) data lam (if s.order = 2 then 1 else 2) := by
  obtain ⟨g1, w⟩ := set_ok (s := s) hk hlen hmin ((nondecreasing_iff knots).1 hknots)
    (coeffs := List.replicate (numCoefficientsRequired s.order (knots.length - 2 * (s.order - 1) - 1)) 0)
    (by simp [numCoefficientsRequired]; omega)
  obtain ⟨s', b1, b2, b3, b4, b5⟩ := sparseFit_ok hx w w.tMin_eq w.tMax_eq data htimes hlam
  refine ⟨s', ?_, b2, b3, b4, b5⟩
  unfold initSplineSparseKnots
  rw [if_neg (by omega), if_neg (by unfold timesOk; simpa using hsorted), g1, Out.ok_bind, b1]

/-- **C114** (exact fits).  If some coefficients on the same knots have cost zero, then a spline with the smallest
cost passes through every point. -/
theorem C114_exact (w : WellFormed s) {data : List (ℝ × (Fin D → ℝ))} {lam : ℝ} (hlam : 0 ≤ lam) {n : Nat}
    (hmin : ∀ y, fitCost s data lam n ≤ fitCost (withCoeffs s y) data lam n)
    (hz : ∃ y, fitCost (withCoeffs s y) data lam n = 0) {t : ℝ} {p v : Fin D → ℝ} (hp : (t, p) ∈ data)
    (hv : evalD s t 0 = .ok v) : v = p := by
  obtain ⟨y, hy⟩ := hz
  have h0 := hmin y
  rw [hy] at h0
  unfold fitCost at h0
  have h1 := integral_nonneg w lam hlam n
  have hnn : ∀ q : ℝ × (Fin D → ℝ), 0 ≤ missSq s q.1 q.2 := by
    intro q
    unfold missSq
    split
    · exact sum_nonneg fun e _ => sq_nonneg _
    · exact le_refl _
  have h2 : ∀ x ∈ data.map (fun q => missSq s q.1 q.2), 0 ≤ x := by
    intro x hx
    obtain ⟨q, _, rfl⟩ := List.mem_map.1 hx
    exact hnn q
  have h3 := List.single_le_sum h2 _ (List.mem_map.2 ⟨(t, p), hp, rfl⟩)
  have h4 : missSq s t p = 0 := le_antisymm (by simp only at h3; linarith) (hnn (t, p))
  unfold missSq at h4
  rw [hv] at h4
  funext e
  have := (sum_eq_zero_iff_of_nonneg (fun e _ => sq_nonneg _)).1 h4 e (mem_univ e)
  have := pow_eq_zero_iff (two_ne_zero) |>.1 this
  linarith

/-- **C114** (rejections).  Fewer than two points, no segment, or decreasing times are rejected. -/
theorem C114_rejects (sol : Solvers ℝ) (data : List (ℝ × (Fin D → ℝ))) (n : Nat) (knots : List ℝ) (lam : ℝ) :
    (data.length < 2 ∨ n = 0 ∨ ¬(data.map Prod.fst).Pairwise (· ≤ ·) →
      initSpline3 sol s data n lam = .raise ∧ initSplineSparse sol s data n lam = .raise) ∧
    (data.length < 2 ∨ ¬(data.map Prod.fst).Pairwise (· ≤ ·) → initSplineSparseKnots sol s data knots lam = .raise) := by
  constructor
  · intro h
    have : fitKnots s data n = .raise := by
      unfold fitKnots
      by_cases h1 : data.length < 2
      · rw [if_pos h1]
      by_cases h2 : n < 1
      · rw [if_neg h1, if_pos h2]
      rw [if_neg h1, if_neg h2, if_pos]
      rcases h with h | h | h
      · exact absurd h h1
      · omega
      · exact h
    unfold initSpline3 initSplineSparse
    rw [this]
    exact ⟨rfl, rfl⟩
  · intro h
    unfold initSplineSparseKnots
    by_cases h1 : data.length < 2
    · rw [if_pos h1]
    rw [if_neg h1, if_pos]
    rcases h with h | h
    · exact absurd h h1
    · exact h

/-- Exact solvers exist. -/
theorem exact_exists : ∃ sol : Solvers ℝ, Exact sol := by
  classical
  have hns : ∀ (n : Nat) (A : Nat → Nat → ℝ) (b : Nat → ℝ), Nonsingular n A → ∃ x, Solves n A x b := by
    intro n A b h
    let M : Matrix (Fin n) (Fin n) ℝ := Matrix.of fun i j => A i j
    have hinj : Function.Injective M.mulVecLin := by
      rw [← LinearMap.ker_eq_bot, LinearMap.ker_eq_bot']
      intro v hv
      funext j
      have := h (fun j => if hj : j < n then v ⟨j, hj⟩ else 0) (by
        intro i hi
        rw [Finset.sum_range]
        have := congrFun hv ⟨i, hi⟩
        simpa [M, Matrix.mulVec, dotProduct] using this) j j.2
      simpa using this
    obtain ⟨v, hv⟩ := (LinearMap.injective_iff_surjective.1 hinj) fun i => b i
    refine ⟨fun j => if hj : j < n then v ⟨j, hj⟩ else 0, ?_⟩
    intro i hi
    rw [Finset.sum_range]
    have := congrFun hv ⟨i, hi⟩
    simpa [M, Matrix.mulVec, dotProduct] using this
  let f : Nat → (Nat → Nat → ℝ) → (Nat → ℝ) → (Nat → ℝ) := fun n A b =>
    if h : ∃ x, Solves n A x b then h.choose else fun _ => 0
  have hf : ∀ n A b, (∃ x, Solves n A x b) → Solves n A (f n A b) b := by
    intro n A b h
    simp only [f, dif_pos h]
    exact h.choose_spec
  exact ⟨⟨f, f, fun n A b => none⟩, fun n A b h => hf n A b (hns n A b h), fun n A b _ h => hf n A b h,
    fun n A b x _ h => by cases h⟩

end Fit

end Kalibr.Fit
