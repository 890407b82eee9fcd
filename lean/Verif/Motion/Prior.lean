import Verif.Motion.Error
import Mathlib.Analysis.Matrix.Order
import Mathlib.Analysis.CStarAlgebra.Matrix
import Mathlib.Analysis.SpecialFunctions.ContinuousFunctionalCalculus.Rpow.Basic

/-!
# C103, C104: the motion error terms made of marginalization priors, and the design variables of a spline
-/

set_option linter.unusedSectionVars false

namespace Kalibr.Motion

open BSpline Sparse Finset

/-! ## C104: the design variables -/

section Mapped

variable {K : Type} [Field K] [LinearOrder K] [IsStrictOrderedRing K] {D : Nat}

/-- **C104** (updates).  `update` adds the increment to the value; `revert` after an update or after
`setParameters` restores the value that there was before, whatever happened earlier; `setParameters` and
`updateMap` give the value they are given. -/
theorem C104_update_revert (x : MappedVec K D) (dp v : Fin D → K) :
    (x.update dp).v = x.v + dp ∧ (x.update dp).revert.v = x.v ∧ (x.set v).v = v ∧ (x.set v).revert.v = x.v ∧
    (x.remap v).v = v ∧ (x.remap v).revert.v = v ∧ x.revert.revert.v = x.revert.v :=
  ⟨rfl, rfl, rfl, rfl, rfl, rfl, rfl⟩

/-- **C104** (minimal difference, what holds).  Directly after construction, `revert` or `updateMap` the minimal
difference to `xHat` is the difference of the value to `xHat`.  Missing: after `update` and `setParameters`, where
it is the difference of the value before, see `C104_minimal_difference_counterexample`. -/
theorem C104_minimal_difference_partial (x : MappedVec K D) (v xHat : Fin D → K) :
    (MappedVec.new v).minimalDifference xHat = (MappedVec.new v).v - xHat ∧
    x.revert.minimalDifference xHat = x.revert.v - xHat ∧
    (x.remap v).minimalDifference xHat = (x.remap v).v - xHat ∧
    (∀ dp, (x.update dp).minimalDifference xHat = x.v - xHat) ∧
    (x.set v).minimalDifference xHat = x.v - xHat :=
  ⟨rfl, rfl, rfl, fun _ => rfl, rfl⟩

/-- **C104** is false of the minimal difference: after any update by a vector that is not zero, the minimal
difference to the value before the update is zero. -/
theorem C104_minimal_difference_counterexample (v dp : Fin D → K) (h : dp ≠ 0) :
    ((MappedVec.new v).update dp).minimalDifference v = 0 ∧ ((MappedVec.new v).update dp).v - v ≠ 0 := by
  constructor
  · simp [MappedVec.minimalDifference, MappedVec.update, MappedVec.new]
  · simpa [MappedVec.update, MappedVec.new] using h

/-- An update that is not zero. -/
example : (fun _ => 1 : Fin 3 → ℚ) ≠ 0 := fun h => by simpa using congrFun h 0

end Mapped

/-! ## C103: the error terms -/

section Prior

variable {D : Nat} {s : Spline ℝ D}

/-- `R` is a factor of the segment matrix: `Rᵀ R` is the matrix that `segmentQuadraticIntegral` returns. -/
def Factor (s : Spline ℝ D) (W : Mat ℝ) (n seg : Nat) (R : Nat → Nat → ℝ) : Prop :=
  ∃ Q, segmentQuadraticIntegral s W seg n = .ok Q ∧ ∀ i j, i < D * s.order → j < D * s.order →
    ∑ k ∈ range (D * s.order), R k i * R k j = Q i j

theorem quad_factor {m : Nat} {Q R : Nat → Nat → ℝ}
    (h : ∀ i j, i < m → j < m → ∑ k ∈ range m, R k i * R k j = Q i j) (x : Nat → ℝ) :
    ∑ k ∈ range m, (∑ j ∈ range m, R k j * x j) * (∑ j ∈ range m, R k j * x j) = quad m Q x := by
  unfold quad
  rw [sum_congr rfl (g := fun k => ∑ i ∈ range m, ∑ j ∈ range m, x i * (R k i * R k j) * x j)]
  · rw [sum_comm]
    refine sum_congr rfl fun i hi => ?_
    rw [sum_comm]
    refine sum_congr rfl fun j hj => ?_
    rw [← h i j (mem_range.1 hi) (mem_range.1 hj), mul_sum, sum_mul]
  · intro k _
    rw [sum_mul_sum]
    refine sum_congr rfl fun i _ => sum_congr rfl fun j _ => ?_
    ring

theorem segment_window (w : WellFormed s) {seg : Nat} (h : seg < numValidTimeSegments s.order s.knots.length) :
    segmentCoefficients s seg = .ok ((s.coeffs.drop seg).take s.order) ∧
    ((s.coeffs.drop seg).take s.order).length = s.order ∧
    ∀ i, i < s.order → ((s.coeffs.drop seg).take s.order)[i]? = some (s.coeffs.getD (seg + i) 0) := by
  have hc := numValid_cols w h
  refine ⟨?_, ?_, ?_⟩
  · rw [segmentCoefficients, if_neg (by omega), if_neg (by omega)]
  · simp; omega
  · intro i hi
    rw [List.getElem?_take_of_lt hi, List.getElem?_drop, List.getD_eq_getElem?_getD,
      List.getElem?_eq_getElem (show seg + i < s.coeffs.length by omega)]
    rfl

theorem stacked_eq (c : List (Fin D → ℝ)) {i : Nat} (h : i % D < D) : stacked c i = c.getD (i / D) 0 ⟨i % D, h⟩ := by
  rw [stacked, dif_pos h]

/-- The error vector of a term: `R` times the vector `p - 2 c`, where `c` are the coefficients when the term was
made and `p` the values of the design variables before their last update. -/
theorem term_error (w : WellFormed s) {seg : Nat} (h : seg < numValidTimeSegments s.order s.knots.length)
    (R : Nat → Nat → ℝ) : ∃ t, motionTerm s R seg = .ok t ∧ t.rows = D * s.order ∧ t.R = R ∧
      t.dvs = List.range' seg s.order ∧ ∀ (x : Nat → MappedVec ℝ D) i,
      t.error x i = -∑ j ∈ range (D * s.order), R i j *
        window D seg (fun m => 2 * stacked s.coeffs m -
          stacked ((List.range s.coeffs.length).map fun k => (x k).pv) m) j := by
  have hc := numValid_cols w h
  obtain ⟨h1, h2, h3⟩ := segment_window w h
  refine ⟨⟨List.range' seg s.order, (s.coeffs.drop seg).take s.order, D * s.order,
    fun i => ∑ j ∈ range (D * s.order), R i j * stacked ((s.coeffs.drop seg).take s.order) j, R⟩,
    by simp only [motionTerm, h1]; rfl, rfl, rfl, rfl, ?_⟩
  intro x i
  rw [PriorTerm.error, List.length_range', ← sum_sub_distrib]
  congr 1
  refine sum_congr rfl fun j hj => ?_
  have hj := mem_range.1 hj
  rw [← mul_sub]
  congr 1
  have hD : 0 < D := Nat.pos_of_ne_zero fun h0 => by simp [h0] at hj
  have hm : j % D < D := Nat.mod_lt _ hD
  have hm' : (seg * D + j) % D < D := Nat.mod_lt _ hD
  have hd : j / D < s.order := Nat.div_lt_of_lt_mul hj
  have em : (seg * D + j) % D = j % D := by rw [mul_comm, Nat.mul_add_mod]
  have ed : (seg * D + j) / D = seg + j / D := by rw [mul_comm, Nat.mul_add_div hD]
  rw [window, PriorTerm.difference, stacked_eq _ hm, stacked_eq _ hm, stacked_eq _ hm', stacked_eq _ hm']
  simp only [em, ed]
  have g1 : ((s.coeffs.drop seg).take s.order).getD (j / D) 0 = s.coeffs.getD (seg + j / D) 0 := by
    rw [List.getD_eq_getElem?_getD, h3 _ hd]; rfl
  have g2 : (((List.range' seg s.order).zip ((s.coeffs.drop seg).take s.order)).map
      fun q => (x q.1).minimalDifference q.2).getD (j / D) 0 =
      (x (seg + j / D)).pv - s.coeffs.getD (seg + j / D) 0 := by
    have hz : ((List.range' seg s.order).zip ((s.coeffs.drop seg).take s.order))[j / D]? =
        some (seg + j / D, s.coeffs.getD (seg + j / D) 0) := by
      rw [List.getElem?_zip_eq_some]
      exact ⟨by simp [List.getElem?_range', hd], h3 _ hd⟩
    rw [List.getD_eq_getElem?_getD, List.getElem?_map, hz]
    rfl
  have g3 : ((List.range s.coeffs.length).map fun k => (x k).pv).getD (seg + j / D) 0 = (x (seg + j / D)).pv := by
    rw [List.getD_eq_getElem?_getD, List.getElem?_map, List.getElem?_range (by omega)]
    rfl
  rw [g1, g2, g3, Pi.sub_apply]
  ring

theorem terms_ok (w : WellFormed s) (W : Mat ℝ) (n : Nat) (R : Nat → Nat → Nat → ℝ) (l : List Nat)
    (hl : ∀ a ∈ l, a < numValidTimeSegments s.order s.knots.length) (hR : ∀ a ∈ l, Factor s W n a (R a)) :
    ∃ ts, addMotionErrorTerms s R l = .ok ts ∧ ∀ x : Nat → MappedVec ℝ D,
      (ts.map fun t => t.cost x).sum = (l.map fun a => quad (D * s.order) (segMat s W.get a n)
        (window D a fun m => 2 * stacked s.coeffs m -
          stacked ((List.range s.coeffs.length).map fun k => (x k).pv) m)).sum := by
  induction l with
  | nil => exact ⟨[], rfl, fun x => by simp⟩
  | cons a l ih =>
    obtain ⟨ts, hts, hv⟩ := ih (fun b hb => hl b (by simp [hb])) (fun b hb => hR b (by simp [hb]))
    have ha := hl a (by simp)
    obtain ⟨t, ht, tr, tR, -, te⟩ := term_error w ha (R a)
    refine ⟨t :: ts, by simp only [addMotionErrorTerms, ht, hts]; rfl, fun x => ?_⟩
    rw [List.map_cons, List.sum_cons, List.map_cons, List.sum_cons, hv]
    congr 1
    obtain ⟨Q, hQ, hf⟩ := hR a (by simp)
    have hb := basis_length w
    have hW : W.rows = D ∧ W.cols = D ∧ nearSymmetric D W := by
      by_contra hW
      rw [segmentQuadraticIntegral, if_neg (show ¬s.basis.length ≤ a by omega)] at hQ
      by_cases g2 : W.rows = D
      · by_cases g3 : W.cols = D
        · have g4 : ¬nearSymmetric D W := fun g => hW ⟨g2, g3, g⟩
          rw [if_neg (not_not.2 g2), if_neg (not_not.2 g3)] at hQ
          simp only [if_neg g4] at hQ
          cases hx : Dii s a <;> cases hy : Vi s a <;> cases hz : Mi s a <;>
            simp only [hx, hy, hz] at hQ <;> cases hQ
        · rw [if_neg (not_not.2 g2), if_pos g3] at hQ
          cases hQ
      · rw [if_pos g2] at hQ
        cases hQ
    rw [segment_ok w hW.1 hW.2.1 hW.2.2 n ha, Out.ok.injEq] at hQ
    subst hQ
    rw [PriorTerm.cost, tr, ← quad_factor hf]
    refine sum_congr rfl fun i _ => ?_
    rw [te, neg_mul_neg]

/-- **C103** (what the terms measure).  For every well-formed spline and all factors of the segment matrices, the
sum of the squared errors of the terms is the motion integral of the curve with coefficients `2 c - p`, where `c`
are the coefficients when the terms were made and `p` the values of the design variables before their last
update. -/
theorem C103_actual (w : WellFormed s) (W : Mat ℝ) (n : Nat) (R : Nat → Nat → Nat → ℝ)
    (hR : ∀ a, a < numValidTimeSegments s.order s.knots.length → Factor s W n a (R a)) :
    ∃ ts, addMotionErrorTerms s R (List.range (numValidTimeSegments s.order s.knots.length)) = .ok ts ∧
    ∀ x : Nat → MappedVec ℝ D, (ts.map fun t => t.cost x).sum =
      motionIntegral (withCoeffs s fun m => 2 * stacked s.coeffs m -
        stacked ((List.range s.coeffs.length).map fun k => (x k).pv) m) W n := by
  obtain ⟨ts, hts, hv⟩ := terms_ok w W n R (List.range (numValidTimeSegments s.order s.knots.length))
    (fun a ha => List.mem_range.1 ha) fun a ha => hR a (List.mem_range.1 ha)
  refine ⟨ts, hts, fun x => ?_⟩
  rw [hv, ← sum_segments (withCoeffs_wf w _) W n]
  refine congrArg _ (List.map_congr_left fun a ha => ?_)
  have hb := Nat.mul_le_mul_right D (numValid_cols w (List.mem_range.1 ha))
  rw [Nat.add_mul] at hb
  refine quad_congr (n := D * s.order) (segMat s W.get a n) fun i hi => ?_
  rw [mul_comm] at hi
  rw [window, window]
  exact (stacked_unstack (N := s.coeffs.length) (fun m => 2 * stacked s.coeffs m -
        stacked ((List.range s.coeffs.length).map fun k => (x k).pv) m) (by omega)).symm

/-- **C103** (when the terms are made).  For design variables that hold the coefficients of the spline, as they do
when the terms are made, the sum of the squared errors is the motion integral of the curve.  Missing for the full
claim: any other value of the coefficients, where it is false, see `C103_counterexample`. -/
theorem C103_at_creation_partial (w : WellFormed s) (W : Mat ℝ) (n : Nat) (R : Nat → Nat → Nat → ℝ)
    (hR : ∀ a, a < numValidTimeSegments s.order s.knots.length → Factor s W n a (R a)) :
    ∃ ts, addMotionErrorTerms s R (List.range (numValidTimeSegments s.order s.knots.length)) = .ok ts ∧
    (ts.map fun t => t.cost fun k => MappedVec.new (s.coeffs.getD k 0)).sum = motionIntegral s W n := by
  obtain ⟨ts, hts, hv⟩ := C103_actual w W n R hR
  refine ⟨ts, hts, ?_⟩
  rw [hv]
  have e : ((List.range s.coeffs.length).map fun k => (MappedVec.new (s.coeffs.getD k 0)).pv) = s.coeffs := by
    apply List.ext_getElem
    · simp
    · intro m h1 h2
      simp [MappedVec.new, List.getD_eq_getElem?_getD, h2]
  rw [e]
  have : (fun m => 2 * stacked s.coeffs m - stacked s.coeffs m) = stacked s.coeffs := by funext m; ring
  rw [this, withCoeffs_stacked]

/-- **C103** (what goes wrong).  After every coefficient was updated to zero and then updated once more by nothing,
the curve is zero and so is its motion integral, but the sum of the squared errors is four times the motion
integral of the curve at the time when the terms were made. -/
theorem C103_after_updates (w : WellFormed s) (W : Mat ℝ) (hW : W.rows = D ∧ W.cols = D)
    (hs : ∀ r c, W.get r c = W.get c r) (n : Nat) (R : Nat → Nat → Nat → ℝ)
    (hR : ∀ a, a < numValidTimeSegments s.order s.knots.length → Factor s W n a (R a)) :
    ∃ ts, addMotionErrorTerms s R (List.range (numValidTimeSegments s.order s.knots.length)) = .ok ts ∧
    ∀ x : Nat → MappedVec ℝ D,
      (∀ k, x k = ((MappedVec.new (s.coeffs.getD k 0)).update (-s.coeffs.getD k 0)).update 0) →
      (∀ k, (x k).v = 0) ∧ (ts.map fun t => t.cost x).sum = 4 * motionIntegral s W n ∧
      motionIntegral (withCoeffs s (stacked ((List.range s.coeffs.length).map fun k => (x k).v))) W n = 0 := by
  obtain ⟨ts, hts, hv⟩ := C103_actual w W n R hR
  refine ⟨ts, hts, fun x hx => ?_⟩
  have h0 : ∀ k, (x k).v = 0 := fun k => by simp [hx, MappedVec.new, MappedVec.update]
  have h1 : ∀ k, (x k).pv = 0 := fun k => by simp [hx, MappedVec.new, MappedVec.update]
  have hz : ∀ m, stacked ((List.range s.coeffs.length).map fun _ => (0 : Fin D → ℝ)) m = 0 := by
    intro m
    unfold stacked
    split_ifs with h
    · have : ((List.range s.coeffs.length).map fun _ => (0 : Fin D → ℝ)).getD (m / D) 0 = 0 := by
        rw [List.getD_eq_getElem?_getD, List.getElem?_map]
        cases (List.range s.coeffs.length)[m / D]? <;> rfl
      rw [this]; rfl
    · rfl
  obtain ⟨Q, -, hQ, -⟩ := C101_accepts w W hW.1 hW.2 hs n
  have hI : ∀ y, motionIntegral (withCoeffs s y) W n = quad (s.coeffs.length * D) Q y :=
    fun y => (C101_integral w W _ hQ y).symm
  refine ⟨h0, ?_, ?_⟩
  · have hI0 : motionIntegral s W n = quad (s.coeffs.length * D) Q (stacked s.coeffs) := by
      rw [← hI, withCoeffs_stacked]
    rw [hv, hI, hI0]
    simp only [h1, hz, sub_zero, quad, mul_sum]
    refine sum_congr rfl fun i _ => sum_congr rfl fun j _ => ?_
    ring
  · rw [hI]
    simp only [h0, hz, quad, zero_mul, sum_const_zero]

/-- **C103** (Jacobians).  The block of the Jacobian for the `k`-th design variable of a term is the block of
columns of `R` that belongs to it, and changing only the value before the last update of that design variable
changes the error by that block times the change. -/
theorem C103_jacobian (w : WellFormed s) {seg : Nat} (h : seg < numValidTimeSegments s.order s.knots.length)
    (R : Nat → Nat → ℝ) : ∃ t, motionTerm s R seg = .ok t ∧ t.dvs = List.range' seg s.order ∧
      ∀ (x : Nat → MappedVec ℝ D) (k : Nat), k < s.order → ∀ i,
      (∀ j, j < D → t.jacobian x k i j = R i (k * D + j)) ∧
      ∀ dp : Fin D → ℝ, t.error (Function.update x (seg + k) (((x (seg + k)).remap
        ((x (seg + k)).pv + dp)))) i = t.error x i + ∑ j : Fin D, t.jacobian x k i j * dp j := by
  have hc := numValid_cols w h
  obtain ⟨t, ht, tr, tR, td, te⟩ := term_error w h R
  refine ⟨t, ht, td, fun x k hk i => ?_⟩
  have hJ : ∀ j, j < D → t.jacobian x k i j = R i (k * D + j) := by
    intro j hj
    rw [PriorTerm.jacobian, sum_eq_single j]
    · simp [MappedVec.differenceJacobian, tR]
    · intro e _ he
      simp [MappedVec.differenceJacobian, he]
    · intro hn
      exact absurd (mem_range.2 hj) hn
  refine ⟨hJ, fun dp => ?_⟩
  rw [te, te, ← sub_eq_iff_eq_add', ← neg_sub', ← sum_sub_distrib, sum_congr rfl (g := fun j =>
    R i j * (if j / D = k then -(if hm : j % D < D then dp ⟨j % D, hm⟩ else 0) else 0))]
  · rw [mul_comm D, sum_range_mul, sum_eq_single k]
    · rw [← sum_neg_distrib, ← Fin.sum_univ_eq_sum_range
        (fun b => -(R i (k * D + b) * (if (k * D + b) / D = k then
          -(if hm : (k * D + b) % D < D then dp ⟨(k * D + b) % D, hm⟩ else 0) else 0)))]
      refine sum_congr rfl fun j _ => ?_
      rw [hJ j j.isLt, if_pos (div_lin j.isLt k), dif_pos (Nat.mod_lt _ (by have := j.isLt; omega))]
      have : (⟨(k * D + j) % D, Nat.mod_lt _ (by have := j.isLt; omega)⟩ : Fin D) = j :=
        Fin.ext (mod_lin j.isLt k)
      rw [this]
      ring
    · intro a _ ha
      refine sum_eq_zero fun b hb => ?_
      rw [if_neg (by rw [div_lin (mem_range.1 hb)]; exact ha), mul_zero]
    · intro hn
      exact absurd (mem_range.2 hk) hn
  · intro j hj
    have hj := mem_range.1 hj
    have hD : 0 < D := Nat.pos_of_ne_zero fun h0 => by simp [h0] at hj
    have hd : j / D < s.order := Nat.div_lt_of_lt_mul hj
    have ed : (seg * D + j) / D = seg + j / D := by rw [mul_comm, Nat.mul_add_div hD]
    have em : (seg * D + j) % D = j % D := by rw [mul_comm, Nat.mul_add_mod]
    have hm' : (seg * D + j) % D < D := Nat.mod_lt _ hD
    have g : ∀ y : Nat → MappedVec ℝ D,
        ((List.range s.coeffs.length).map fun k => (y k).pv).getD (seg + j / D) 0 = (y (seg + j / D)).pv := by
      intro y
      rw [List.getD_eq_getElem?_getD, List.getElem?_map, List.getElem?_range (by omega)]
      rfl
    rw [← mul_sub]
    congr 1
    simp only [window, stacked_eq _ hm', ed, g]
    rw [dif_pos (Nat.mod_lt _ hD)]
    by_cases hkk : j / D = k
    · subst hkk
      simp [MappedVec.remap, em]
    · rw [Function.update_of_ne (by omega), if_neg hkk]
      ring

/-! ### The factors -/

/-- The block `Q(0..m, 0..m)` as a matrix. -/
def asMatrix (m : Nat) (Q : Nat → Nat → ℝ) : Matrix (Fin m) (Fin m) ℝ := Matrix.of fun i j => Q i j

section
open scoped MatrixOrder Matrix.Norms.L2Operator

/-- A singular value decomposition `Q = U Σ Vᵀ` of a positive semidefinite matrix has `U Σ Uᵀ = Q`. -/
theorem svd_of_posSemidef {m : Nat} {Q U V : Matrix (Fin m) (Fin m) ℝ} {σ : Fin m → ℝ}
    (hQ : Q.PosSemidef) (hU : U.transpose * U = 1) (hV : V.transpose * V = 1) (h0 : ∀ i, 0 ≤ σ i)
    (h : Q = U * Matrix.diagonal σ * V.transpose) : U * Matrix.diagonal σ * U.transpose = Q := by
  have hP : (U * Matrix.diagonal σ * U.transpose).PosSemidef := by
    have := (Matrix.PosSemidef.diagonal (R := ℝ) (n := Fin m) (d := σ) h0).mul_mul_conjTranspose_same U
    rwa [Matrix.conjTranspose_eq_transpose_of_trivial] at this
  refine (CFC.mul_self_eq_mul_self_iff _ _ hP.nonneg hQ.nonneg).1 ?_
  have hsym : Q.transpose = Q := by
    have := hQ.isHermitian.eq
    rwa [Matrix.conjTranspose_eq_transpose_of_trivial] at this
  have e : Q * Q = Q * Q.transpose := by rw [hsym]
  rw [e, h]
  simp only [Matrix.transpose_mul, Matrix.transpose_transpose, Matrix.diagonal_transpose, Matrix.mul_assoc]
  rw [← Matrix.mul_assoc U.transpose U, hU, ← Matrix.mul_assoc V.transpose V, hV]
end

theorem quad_asMatrix {m : Nat} (Q : Nat → Nat → ℝ) (x : Nat → ℝ) :
    quad m Q x = (fun i : Fin m => x i) ⬝ᵥ (asMatrix m Q).mulVec fun i : Fin m => x i := by
  simp only [quad, dotProduct, Matrix.mulVec, asMatrix, Matrix.of_apply, mul_sum]
  rw [← Fin.sum_univ_eq_sum_range (fun i => ∑ j ∈ range m, x i * Q i j * x j)]
  refine sum_congr rfl fun i _ => ?_
  rw [← Fin.sum_univ_eq_sum_range (fun j => x i * Q i j * x j)]
  refine sum_congr rfl fun j _ => ?_
  ring

/-- The segment matrix is positive semidefinite when the weight matrix is. -/
theorem segMat_posSemidef (w : WellFormed s) (W : Mat ℝ) (hs : ∀ r c, W.get r c = W.get c r)
    (hp : ∀ v : Fin D → ℝ, 0 ≤ ∑ d : Fin D, ∑ e : Fin D, v d * W.get d e * v e) (n : Nat) {seg : Nat}
    (h : seg < numValidTimeSegments s.order s.knots.length) :
    (asMatrix (D * s.order) (segMat s W.get seg n)).PosSemidef := by
  have hc := numValid_cols w h
  have hk := w.order_ge; have hn := w.enough
  refine Matrix.PosSemidef.of_dotProduct_mulVec_nonneg ?_ ?_
  · ext i j
    have hD : 0 < D := Nat.pos_of_ne_zero fun h0 => by have := i.isLt; simp [h0] at this
    simp only [Matrix.conjTranspose_apply, asMatrix, Matrix.of_apply, star_trivial]
    have key : ∀ a b : Nat, segMat s W.get seg n a b = segMat s W.get seg n b a := by
      intro a b
      have ea : a / D * D + a % D = a := Nat.div_add_mod' a D
      have eb : b / D * D + b % D = b := Nat.div_add_mod' b D
      have h1 := segMat_entry (s := s) W.get seg n (a / D) (b / D) (Nat.mod_lt a hD) (Nat.mod_lt b hD)
      have h2 := segMat_entry (s := s) W.get seg n (b / D) (a / D) (Nat.mod_lt b hD) (Nat.mod_lt a hD)
      rw [ea, eb] at h1 h2
      rw [h1, h2, gram_symm w h, hs]
    exact key _ _
  · intro v
    let x : Nat → ℝ := fun m => if hm : m - seg * D < D * s.order then v ⟨m - seg * D, hm⟩ else 0
    have e1 : (fun i : Fin (D * s.order) => window D seg x i) = v := by
      funext i
      simp only [window, x, Nat.add_sub_cancel_left]
      rw [dif_pos i.isLt]
    rw [star_trivial]
    conv_rhs => rw [← e1]
    rw [← quad_asMatrix]
    have e2 : quad (D * s.order) (segMat s W.get seg n) (window D seg x) =
        quad (D * s.order) (segMat s W.get seg n) (window D seg (stacked (withCoeffs s x).coeffs)) := by
      refine quad_congr _ fun i hi => ?_
      have hb := Nat.mul_le_mul_right D hc
      rw [Nat.add_mul] at hb
      rw [mul_comm] at hi
      rw [window, window]
      exact (stacked_unstack (N := s.coeffs.length) x (by omega)).symm
    rw [e2]
    refine le_of_le_of_eq ?_ (quad_segMat (withCoeffs_wf w x) W n h).symm
    refine intervalIntegral.integral_nonneg (w.sorted _ _ (by omega) ?_) fun t _ => hp _
    change seg + s.order - 1 + 1 < s.knots.length
    unfold numValidTimeSegments at h
    omega

/-- **C103** (factors).  For a symmetric positive semidefinite weight matrix and every singular value decomposition
of the segment matrix, what `segmentIntegral` returns is a factor of the segment matrix. -/
theorem C103_factor (w : WellFormed s) (W : Mat ℝ) (hr : W.rows = D) (hc : W.cols = D)
    (hs : ∀ r c, W.get r c = W.get c r)
    (hp : ∀ v : Fin D → ℝ, 0 ≤ ∑ d : Fin D, ∑ e : Fin D, v d * W.get d e * v e) (n : Nat) {seg : Nat}
    (h : seg < numValidTimeSegments s.order s.knots.length) {Q U V : Nat → Nat → ℝ} {σ : Nat → ℝ}
    (hQ : segmentQuadraticIntegral s W seg n = .ok Q)
    (hU : (asMatrix (D * s.order) U).transpose * asMatrix (D * s.order) U = 1)
    (hV : (asMatrix (D * s.order) V).transpose * asMatrix (D * s.order) V = 1) (h0 : ∀ i, 0 ≤ σ i)
    (hsvd : asMatrix (D * s.order) Q = asMatrix (D * s.order) U *
      Matrix.diagonal (fun i : Fin (D * s.order) => σ i) * (asMatrix (D * s.order) V).transpose) :
    Factor s W n seg (segmentIntegral U σ) := by
  refine ⟨Q, hQ, fun i j hi hj => ?_⟩
  have hQ' := hQ
  have hsym : nearSymmetric D W := fun r _ c _ => by
    rw [hs c r, sub_self, abs_zero, symTol]; positivity
  rw [segment_ok w hr hc hsym n h, Out.ok.injEq] at hQ'
  have key := svd_of_posSemidef (by rw [← hQ']; exact segMat_posSemidef w W hs hp n h) hU hV (fun i => h0 i) hsvd
  have := congrFun (congrFun key ⟨i, hi⟩) ⟨j, hj⟩
  rw [Matrix.mul_assoc, Matrix.mul_apply] at this
  simp only [Matrix.diagonal_mul, Matrix.transpose_apply, asMatrix, Matrix.of_apply] at this
  rw [← this, ← Fin.sum_univ_eq_sum_range (fun k => segmentIntegral U σ k i * segmentIntegral U σ k j)]
  refine sum_congr rfl fun k _ => ?_
  have := Real.mul_self_sqrt (h0 k)
  simp only [segmentIntegral]
  linear_combination (U i k * U j k) * this

/-- A singular value decomposition exists: the hypotheses of `C103_factor` are met for every symmetric positive
semidefinite weight matrix. -/
theorem svd_exists (w : WellFormed s) (W : Mat ℝ) (hr : W.rows = D) (hc : W.cols = D)
    (hs : ∀ r c, W.get r c = W.get c r)
    (hp : ∀ v : Fin D → ℝ, 0 ≤ ∑ d : Fin D, ∑ e : Fin D, v d * W.get d e * v e) (n : Nat) {seg : Nat}
    (h : seg < numValidTimeSegments s.order s.knots.length) :
    ∃ (Q U V : Nat → Nat → ℝ) (σ : Nat → ℝ), segmentQuadraticIntegral s W seg n = .ok Q ∧
    (asMatrix (D * s.order) U).transpose * asMatrix (D * s.order) U = 1 ∧
    (asMatrix (D * s.order) V).transpose * asMatrix (D * s.order) V = 1 ∧ (∀ i, 0 ≤ σ i) ∧
    asMatrix (D * s.order) Q = asMatrix (D * s.order) U *
      Matrix.diagonal (fun i : Fin (D * s.order) => σ i) * (asMatrix (D * s.order) V).transpose := by
  have hsym : nearSymmetric D W := fun r _ c _ => by
    rw [hs c r, sub_self, abs_zero, symTol]; positivity
  have hps := segMat_posSemidef w W hs hp n h
  set A := asMatrix (D * s.order) (segMat s W.get seg n) with hA
  let U : Matrix (Fin (D * s.order)) (Fin (D * s.order)) ℝ := hps.isHermitian.eigenvectorUnitary
  let lift : Matrix (Fin (D * s.order)) (Fin (D * s.order)) ℝ → Nat → Nat → ℝ := fun M i j =>
    if hh : i < D * s.order ∧ j < D * s.order then M ⟨i, hh.1⟩ ⟨j, hh.2⟩ else 0
  have hl : ∀ M, asMatrix (D * s.order) (lift M) = M := by
    intro M
    ext i j
    simp only [asMatrix, Matrix.of_apply, lift]
    rw [dif_pos ⟨i.isLt, j.isLt⟩]
  have hUU : U.transpose * U = 1 := by
    have := (Matrix.mem_unitaryGroup_iff' (A := U)).1 hps.isHermitian.eigenvectorUnitary.2
    rwa [Matrix.star_eq_conjTranspose, Matrix.conjTranspose_eq_transpose_of_trivial] at this
  refine ⟨_, lift U, lift U, fun i => if hi : i < D * s.order then hps.isHermitian.eigenvalues ⟨i, hi⟩ else 0,
    segment_ok w hr hc hsym n h, by rw [hl]; exact hUU, by rw [hl]; exact hUU, ?_, ?_⟩
  · intro i
    beta_reduce
    split_ifs with hi
    · exact hps.eigenvalues_nonneg _
    · exact le_refl _
  · rw [hl, ← hA]
    have := hps.isHermitian.spectral_theorem
    conv_lhs => rw [this]
    rw [Unitary.conjStarAlgAut_apply]
    congr 1
    congr 1
    congr 1
    funext i
    simp

/-- All hypotheses of the theorems on the terms can be met: factors exist. -/
theorem factors_exist (w : WellFormed s) (W : Mat ℝ) (hr : W.rows = D) (hc : W.cols = D)
    (hs : ∀ r c, W.get r c = W.get c r)
    (hp : ∀ v : Fin D → ℝ, 0 ≤ ∑ d : Fin D, ∑ e : Fin D, v d * W.get d e * v e) (n : Nat) :
    ∃ R : Nat → Nat → Nat → ℝ, ∀ a, a < numValidTimeSegments s.order s.knots.length → Factor s W n a (R a) := by
  have : ∀ a, ∃ R : Nat → Nat → ℝ, a < numValidTimeSegments s.order s.knots.length → Factor s W n a R := by
    intro a
    by_cases ha : a < numValidTimeSegments s.order s.knots.length
    · obtain ⟨Q, U, V, σ, h1, h2, h3, h4, h5⟩ := svd_exists w W hr hc hs hp n ha
      exact ⟨_, fun _ => C103_factor w W hr hc hs hp n ha h1 h2 h3 h4 h5⟩
    · exact ⟨fun _ _ => 0, fun h => absurd h ha⟩
  choose R hR using this
  exact ⟨R, hR⟩

end Prior

/-! ### Cases -/

/-- A spline of order 2 with one segment and the constant curve 1. -/
noncomputable def oneSpline : Spline ℝ 1 := ⟨2, [0, 1, 2, 3], [fun _ => 1, fun _ => 1], initBasis 2 [0, 1, 2, 3]⟩

theorem oneSpline_wf : WellFormed oneSpline where
  order_ge := by decide
  enough := by simp [oneSpline]
  count := by simp [oneSpline]
  basis_eq := rfl
  sorted := (nondecreasing_iff _).1 (by unfold Nondecreasing; simp [oneSpline]; norm_num)

theorem oneSpline_integral : motionIntegral oneSpline ⟨1, 1, fun _ _ => 1⟩ 0 = 1 := by
  have hk : knotAt oneSpline.knots 1 = 1 ∧ knotAt oneSpline.knots 2 = 2 := by simp [knotAt, oneSpline]
  have h := sum_segments oneSpline_wf ⟨1, 1, fun _ _ => 1⟩ 0
  have hn : numValidTimeSegments oneSpline.order oneSpline.knots.length = 1 := rfl
  rw [← h, hn]
  simp only [List.range_one, List.map_cons, List.map_nil, List.sum_cons, List.sum_nil, add_zero]
  refine (quad_segMat oneSpline_wf ⟨1, 1, fun _ _ => 1⟩ 0 (seg := 0) (by rw [hn]; omega)).trans ?_
  have hd : ∀ t, segDensity oneSpline ⟨1, 1, fun _ _ => 1⟩ 1 0 t = 1 := by
    intro t
    have : segD oneSpline 0 1 0 t = 1 := by
      have e : ∀ c ∈ range oneSpline.order, (oneSpline.coeffs.getD (1 + 1 - oneSpline.order + c) 0) 0 *
          weights oneSpline.order (basisM (knotAt oneSpline.knots) oneSpline.order 1) (uAt oneSpline 1 0 t) c =
          weights oneSpline.order (basisM (knotAt oneSpline.knots) oneSpline.order 1) (uAt oneSpline 1 0 t) c := by
        intro c hc
        have hc : c < 2 := mem_range.1 hc
        have : (oneSpline.coeffs.getD (1 + 1 - oneSpline.order + c) 0) 0 = 1 := by
          interval_cases c <;> rfl
        rw [this, one_mul]
      rw [segD, sum_congr rfl e]
      refine (computeU_sum _ _ _ _ _ (by decide) ?_).trans ?_
      · rw [hk.1, hk.2]; norm_num
      · simp
    simp [segDensity, this]
  change ∫ t in (knotAt oneSpline.knots 1)..(knotAt oneSpline.knots 2), _ = _
  rw [hk.1, hk.2]
  refine (intervalIntegral.integral_congr (g := fun _ => (1 : ℝ)) fun t _ => hd t).trans ?_
  norm_num

/-- **C103** is false: there are a spline, a weight and factors of the segment matrices (with all hypotheses of the
theorems above met) such that after two updates of the design variables the sum of the squared errors is not the
motion integral of the curve that the design variables now hold. -/
theorem C103_counterexample : ∃ (s : Spline ℝ 1) (R : Nat → Nat → Nat → ℝ) (ts : List (PriorTerm ℝ 1))
    (x : Nat → MappedVec ℝ 1), WellFormed s ∧
    (∀ a, a < numValidTimeSegments s.order s.knots.length → Factor s ⟨1, 1, fun _ _ => 1⟩ 0 a (R a)) ∧
    addMotionErrorTerms s R (List.range (numValidTimeSegments s.order s.knots.length)) = .ok ts ∧
    (∀ k, ∃ d e, x k = ((MappedVec.new (s.coeffs.getD k 0)).update d).update e) ∧
    (ts.map fun t => t.cost x).sum = 4 ∧
    motionIntegral (withCoeffs s (stacked ((List.range s.coeffs.length).map fun k => (x k).v)))
      ⟨1, 1, fun _ _ => 1⟩ 0 = 0 := by
  obtain ⟨R, hR⟩ := factors_exist oneSpline_wf ⟨1, 1, fun _ _ => 1⟩ rfl rfl (fun _ _ => rfl)
    (fun v => by simpa using mul_self_nonneg (v 0)) 0
  obtain ⟨ts, hts, hx⟩ := C103_after_updates oneSpline_wf ⟨1, 1, fun _ _ => 1⟩ ⟨rfl, rfl⟩ (fun _ _ => rfl) 0 R hR
  obtain ⟨-, h2, h3⟩ := hx (fun k => ((MappedVec.new (oneSpline.coeffs.getD k 0)).update
    (-oneSpline.coeffs.getD k 0)).update 0) fun k => rfl
  exact ⟨oneSpline, R, ts, _, oneSpline_wf, hR, hts, fun k => ⟨_, _, rfl⟩,
    by rw [h2, oneSpline_integral]; norm_num, h3⟩

end Kalibr.Motion
