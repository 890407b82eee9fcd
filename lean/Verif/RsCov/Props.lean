import Verif.RsCov.Model
import Verif.Tactics
import Mathlib.Analysis.Calculus.Deriv.Mul
import Mathlib.Analysis.Calculus.Deriv.Pi
import Mathlib.Analysis.Calculus.Deriv.Prod
import Mathlib.Analysis.Calculus.Deriv.Add
import Mathlib.Analysis.Calculus.FDeriv.Comp
import Mathlib.Analysis.Calculus.Deriv.Comp
import Mathlib.LinearAlgebra.Matrix.NonsingularInverse

/-! # C181: the reprojection error of rolling shutter cameras -/

namespace Kalibr.RsCov

open Kalibr.Camera Matrix

/-! ## Square roots -/

/-- Specification: symmetric and positive semidefinite, in two dimensions. -/
def Semi (M : M2) : Prop := M 0 1 = M 1 0 ∧ 0 ≤ M 0 0 ∧ 0 ≤ M 1 1 ∧ M 1 0 * M 1 0 ≤ M 0 0 * M 1 1

/-- Specification: symmetric and positive definite, in two dimensions. -/
def Pos (M : M2) : Prop := M 0 1 = M 1 0 ∧ 0 < M 0 0 ∧ M 1 0 * M 1 0 < M 0 0 * M 1 1

/-- The words mean what they say. -/
theorem semi_iff (M : M2) (hs : M 0 1 = M 1 0) : Semi M ↔ ∀ x : V2, 0 ≤ x ⬝ᵥ M.mulVec x := by
  have e (x : V2) : x ⬝ᵥ M.mulVec x = M 0 0 * (x 0 * x 0) + 2 * M 1 0 * (x 0 * x 1) + M 1 1 * (x 1 * x 1) := by
    simp [dotProduct, mulVec, Fin.sum_univ_two, hs]; ring
  constructor
  · rintro ⟨_, h0, h1, hd⟩ x
    rw [e]
    by_cases ha : M 0 0 = 0
    · have hb : M 1 0 = 0 := by
        rw [ha, zero_mul] at hd
        exact mul_self_eq_zero.mp (le_antisymm hd (mul_self_nonneg _))
      rw [ha, hb]
      have := mul_nonneg h1 (mul_self_nonneg (x 1))
      linarith
    · have hpos : 0 < M 0 0 := lt_of_le_of_ne h0 (Ne.symm ha)
      have h3 : 0 ≤ M 0 0 * (M 0 0 * (x 0 * x 0) + 2 * M 1 0 * (x 0 * x 1) + M 1 1 * (x 1 * x 1)) := by
        have : M 0 0 * (M 0 0 * (x 0 * x 0) + 2 * M 1 0 * (x 0 * x 1) + M 1 1 * (x 1 * x 1)) =
            (M 0 0 * x 0 + M 1 0 * x 1) ^ 2 + (M 0 0 * M 1 1 - M 1 0 * M 1 0) * (x 1 * x 1) := by ring
        rw [this]
        have := mul_nonneg (sub_nonneg.mpr hd) (mul_self_nonneg (x 1))
        positivity
      exact nonneg_of_mul_nonneg_right h3 hpos
  · intro h
    have h0 := h ![1, 0]
    have h1 := h ![0, 1]
    rw [e] at h0 h1
    simp at h0 h1
    refine ⟨hs, h0, h1, ?_⟩
    have h2 := h ![M 1 0, -M 0 0]
    have h3 := h ![-M 1 1, M 1 0]
    have h4 := h ![M 1 0, -1]
    have h5 := h ![1, -M 1 0]
    rw [e] at h2 h3 h4 h5
    simp at h2 h3 h4 h5
    by_contra hc
    push Not at hc
    by_cases ha : M 0 0 = 0
    · rw [ha] at h4 hc
      simp at hc
      have hb : M 1 0 ≠ 0 := by
        intro hb; rw [hb] at hc; simp at hc
      have h6 := h ![(M 1 1 + 1) / M 1 0, -1]
      rw [e, ha] at h6
      simp at h6
      field_simp at h6
      nlinarith
    · have hpos : 0 < M 0 0 := lt_of_le_of_ne h0 (Ne.symm ha)
      nlinarith

/-- **C181**: the square root times its transpose is the matrix, for every positive semidefinite matrix. -/
theorem C181_sqrt (M : M2) (h : Semi M) : matrixSqrt M * (matrixSqrt M)ᵀ = M := by
  obtain ⟨hs, h0, h1, hd⟩ := h
  have core : ∀ a b c : ℝ, 0 ≤ a → 0 ≤ c → c ≤ a → b * b ≤ a * c →
      let l := if a = 0 then b else b / a
      √a * √a = a ∧ l * √a * √a = b ∧ l * √a * (l * √a) + √(c - l * (a * l)) * √(c - l * (a * l)) = c := by
    intro a b c ha hc hca hbc
    have hsa : √a * √a = a := Real.mul_self_sqrt ha
    by_cases hz : a = 0
    · subst hz
      have hb : b = 0 := by
        rw [zero_mul] at hbc
        exact mul_self_eq_zero.mp (le_antisymm hbc (mul_self_nonneg _))
      have hc0 : c = 0 := le_antisymm hca hc
      subst hb hc0
      simp
    · have hpos : 0 < a := lt_of_le_of_ne ha (Ne.symm hz)
      simp only [hz, if_false]
      have hl : b / a * a = b := div_mul_cancel₀ b hz
      have hn : 0 ≤ c - b / a * (a * (b / a)) := by
        have : b / a * (a * (b / a)) = b * b / a := by field_simp
        rw [this, sub_nonneg, div_le_iff₀ hpos]
        linarith [mul_comm a c]
      refine ⟨hsa, by rw [mul_assoc, hsa, hl], ?_⟩
      rw [Real.mul_self_sqrt hn]
      have : b / a * √a * (b / a * √a) = b / a * (b / a) * (√a * √a) := by ring
      rw [this, hsa]
      ring
  have hM : M = !![M 0 0, M 1 0; M 1 0, M 1 1] := by
    ext i j; fin_cases i <;> fin_cases j <;> simp [hs]
  unfold matrixSqrt
  simp only [abs_of_nonneg h0, abs_of_nonneg h1]
  by_cases hsw : M 0 0 < M 1 1
  · obtain ⟨e1, e2, e3⟩ := core (M 1 1) (M 1 0) (M 0 0) h1 h0 hsw.le (by linarith [mul_comm (M 0 0) (M 1 1)])
    simp only [hsw, if_true]
    generalize (if M 1 1 = 0 then M 1 0 else M 1 0 / M 1 1) = l at e2 e3 ⊢
    conv_rhs => rw [hM]
    ext i j
    fin_cases i <;> fin_cases j <;> simp [Matrix.mul_apply, Fin.sum_univ_two]
    · exact e3
    · exact e2
    · rw [mul_comm]; exact e2
    · exact Real.mul_self_sqrt h1
  · obtain ⟨e1, e2, e3⟩ := core (M 0 0) (M 1 0) (M 1 1) h0 h1 (not_lt.mp hsw) hd
    simp only [hsw, if_false]
    generalize (if M 0 0 = 0 then M 1 0 else M 1 0 / M 0 0) = l at e2 e3 ⊢
    conv_rhs => rw [hM]
    ext i j
    fin_cases i <;> fin_cases j <;> simp [Matrix.mul_apply, Fin.sum_univ_two]
    · exact Real.mul_self_sqrt h0
    · rw [mul_comm]; exact e2
    · exact e2
    · exact e3

example : Semi !![1, 2; 2, 5] ∧ Semi !![5, 2; 2, 1] ∧ Semi !![0, 0; 0, 0] := by
  refine ⟨⟨by simp, by simp, by simp, by norm_num⟩, ⟨by simp, by simp, by simp, by norm_num⟩,
    ⟨by simp, by simp, by simp, by simp⟩⟩

/-! ## The weight -/

theorem pos_semi {M : M2} (h : Pos M) : Semi M := by
  obtain ⟨hs, h0, hd⟩ := h
  refine ⟨hs, h0.le, ?_, hd.le⟩
  by_contra hc
  push Not at hc
  nlinarith [mul_self_nonneg (M 1 0)]

theorem pos_det {M : M2} (h : Pos M) : 0 < M.det := by
  rw [det_fin_two, h.1]; linarith [h.2.2]

theorem pos_inv {M : M2} (h : Pos M) : Pos M⁻¹ := by
  have hd := pos_det h
  have hss := pos_semi h
  obtain ⟨hs, h0, hm⟩ := h
  have h1 : 0 < M 1 1 := by
    by_contra hc
    push Not at hc
    nlinarith [mul_self_nonneg (M 1 0)]
  have e : M⁻¹ = (M.det)⁻¹ • !![M 1 1, -M 0 1; -M 1 0, M 0 0] := by
    rw [inv_def, adjugate_fin_two, Ring.inverse_eq_inv']
  have hi : 0 < (M.det)⁻¹ := inv_pos.mpr hd
  rw [e]
  refine ⟨by simp [hs], by simpa using mul_pos hi h1, ?_⟩
  simp
  have : M.det⁻¹ * M 1 0 * (M.det⁻¹ * M 1 0) < M.det⁻¹ * M 1 1 * (M.det⁻¹ * M 0 0) := by
    have h5 := mul_lt_mul_of_pos_left hm (mul_pos hi hi)
    linarith
  exact this

theorem pos_congr {R A : M2} (h : Pos R) (hA : A.det ≠ 0) : Pos (A * R * Aᵀ) := by
  obtain ⟨hs, h0, hm⟩ := h
  rw [det_fin_two] at hA
  have hrow : A 0 0 ≠ 0 ∨ A 0 1 ≠ 0 := by
    by_contra hc
    push Not at hc
    rw [hc.1, hc.2] at hA
    simp at hA
  refine ⟨?_, ?_, ?_⟩
  · simp [Matrix.mul_apply, Fin.sum_univ_two, hs]; ring
  · simp [Matrix.mul_apply, Fin.sum_univ_two, hs]
    have : R 0 0 * ((A 0 0 * R 0 0 + A 0 1 * R 1 0) * A 0 0 + (A 0 0 * R 1 0 + A 0 1 * R 1 1) * A 0 1) =
        (R 0 0 * A 0 0 + R 1 0 * A 0 1) ^ 2 + (R 0 0 * R 1 1 - R 1 0 * R 1 0) * A 0 1 ^ 2 := by ring
    have hp : 0 < R 0 0 * ((A 0 0 * R 0 0 + A 0 1 * R 1 0) * A 0 0 + (A 0 0 * R 1 0 + A 0 1 * R 1 1) * A 0 1) := by
      rw [this]
      by_cases hz : A 0 1 = 0
      · have : A 0 0 ≠ 0 := by rcases hrow with h | h; exacts [h, absurd hz h]
        rw [hz]
        have : 0 < (R 0 0 * A 0 0) ^ 2 := by positivity
        simpa using this
      · have : 0 < (R 0 0 * R 1 1 - R 1 0 * R 1 0) * A 0 1 ^ 2 := mul_pos (by linarith) (by positivity)
        have := sq_nonneg (R 0 0 * A 0 0 + R 1 0 * A 0 1)
        linarith
    exact pos_of_mul_pos_right hp h0.le |> fun h => by linarith
  · have hdet : (A * R * Aᵀ).det = A.det ^ 2 * R.det := by
      rw [det_mul, det_mul, det_transpose]; ring
    have hsym : (A * R * Aᵀ) 0 1 = (A * R * Aᵀ) 1 0 := by
      simp [Matrix.mul_apply, Fin.sum_univ_two, hs]; ring
    have hA' : A.det ≠ 0 := by rw [det_fin_two]; exact hA
    have hp : 0 < (A * R * Aᵀ).det := by
      rw [hdet]
      have hR : 0 < R.det := pos_det ⟨hs, h0, hm⟩
      positivity
    rw [det_fin_two, hsym] at hp
    linarith

theorem map_det (w : View) : w.map.det = 1 + w.J 1 := by
  simp [View.map, det_fin_two]

theorem inverse_ok {M : M2} (h : M.det ≠ 0) : inverse M = .ok M⁻¹ := by
  simp [inverse, h]

/-- **C181**: for every keypoint with a positive definite covariance, whatever was evaluated before: as long as the
motion of the image does not keep up with the shutter, the error is the keypoint less the projection, and its weight is
that of the displacement `u` of the keypoint which the map takes to the error. -/
theorem C181_weight (t : Term) (y yhat : V2) (W : M2) (w : View) (hW : Pos W) (hw : w.J 1 ≠ -1) :
    ∃ t' c, t.evaluate y yhat W (some w) = .ok (t', c) ∧ t'.error = y - yhat ∧ Pos t'.invR ∧
      t'.invR = (w.map * W⁻¹ * w.mapᵀ)⁻¹ ∧
      ∀ u, w.map.mulVec u = y - yhat → c = u ⬝ᵥ W.mulVec u := by
  have hA : w.map.det ≠ 0 := by
    rw [map_det]; intro h; exact hw (by linarith)
  have hWd : W.det ≠ 0 := (pos_det hW).ne'
  have hP := pos_congr (pos_inv hW) hA
  have hPi := pos_inv hP
  have hsq := C181_sqrt _ (pos_semi hPi)
  refine ⟨⟨y - yhat, matrixSqrt (w.map * W⁻¹ * w.mapᵀ)⁻¹⟩,
    (y - yhat) ⬝ᵥ (Term.invR ⟨y - yhat, matrixSqrt (w.map * W⁻¹ * w.mapᵀ)⁻¹⟩).mulVec (y - yhat), by
    simp only [Term.evaluate, inverse_ok hWd, Out.bind, inverse_ok (pos_det hP).ne'], rfl, ?_, ?_, ?_⟩
  · simp only [Term.invR, hsq]; exact hPi
  · simp only [Term.invR, hsq]
  · intro u hu
    simp only [Term.invR, hsq]
    rw [← hu]
    have hAu : IsUnit w.map.det := Ne.isUnit hA
    have hWu : IsUnit W.det := Ne.isUnit hWd
    rw [Matrix.mul_inv_rev, Matrix.mul_inv_rev, Matrix.nonsing_inv_nonsing_inv W hWu, mulVec_mulVec, mul_assoc,
      mul_assoc, Matrix.nonsing_inv_mul _ hAu, mul_one, ← mulVec_mulVec, dotProduct_mulVec, ← mulVec_transpose,
      mulVec_mulVec, transpose_nonsing_inv, transpose_transpose, Matrix.nonsing_inv_mul _ hAu, one_mulVec]

/-- A moving camera with a line delay meets the hypotheses. -/
noncomputable def w₁ : View where
  p := ![0, 0, 1, 1]
  Jp := !![100, 0, 0, 0; 0, 100, 0, 0]
  T := 1
  JT := 1
  rate := ![1, 2, 0, 0, 0, 0]
  lineDelay := 1 / 1000

theorem upright_J (Jp : Matrix (Fin 2) (Fin 4) ℝ) (r : Fin 6 → ℝ) (d : ℝ) :
    (View.J ⟨![0, 0, 1, 1], Jp, 1, 1, r, d⟩) = d • Jp.mulVec ((Exp.boxMinus ![0, 0, 1, 1]).mulVec r) := by
  simp only [View.J, one_mulVec, Matrix.mul_one, mulVec_mulVec]

theorem w₁_J : w₁.J = ![1 / 10, 1 / 5] := by
  rw [w₁, upright_J]
  have h3 : (![0, 0, 1, 1] : V4) 3 = 1 := rfl
  ext i
  fin_cases i <;>
    norm_num [Exp.boxMinus, mulVec, dotProduct, Fin.sum_univ_succ, h3]

example : Pos !![4, 1; 1, 2] ∧ w₁.J 1 ≠ -1 := by
  refine ⟨⟨by simp, by simp, by norm_num⟩, ?_⟩
  rw [w₁_J]; norm_num

/-- **C181**: without a line delay, or at rest, it is the plain reprojection error. -/
theorem C181_still (t : Term) (y yhat : V2) (W : M2) (w : View) (hW : Pos W)
    (h : w.lineDelay = 0 ∨ w.rate = 0) :
    ∃ t', t.evaluate y yhat W (some w) = .ok (t', (y - yhat) ⬝ᵥ W.mulVec (y - yhat)) ∧ t'.error = y - yhat ∧
      t'.invR = W := by
  have hJ : w.J = 0 := by
    rcases h with h | h <;> simp [View.J, h]
  have hm : w.map = 1 := by
    ext i j; fin_cases i <;> fin_cases j <;> simp [View.map, hJ]
  obtain ⟨t', c, h1, h2, -, h3, h4⟩ := C181_weight t y yhat W w hW (by rw [hJ]; norm_num)
  have hWd : IsUnit W.det := Ne.isUnit (pos_det hW).ne'
  refine ⟨t', ?_, h2, ?_⟩
  · rw [h1, h4 (y - yhat) (by rw [hm, one_mulVec])]
  · rw [h3, hm]; simp [Matrix.nonsing_inv_nonsing_inv W hWd]

example : ({ w₁ with lineDelay := 0 } : View).lineDelay = 0 := rfl

/-- **C181**: when the image moves backwards by one row per row, nothing is known of the weight. -/
theorem C181_singular_counterexample :
    Pos (1 : M2) ∧ ∀ t y yhat, Term.evaluate t y yhat 1 (some { w₁ with rate := ![0, -10, 0, 0, 0, 0] }) = .ub := by
  refine ⟨⟨by simp, by simp, by simp⟩, fun t y yhat => ?_⟩
  have hJ : ({ w₁ with rate := ![0, -10, 0, 0, 0, 0] } : View).J = ![0, -1] := by
    rw [w₁, upright_J]
    have h3 : (![0, 0, 1, 1] : V4) 3 = 1 := rfl
    ext i
    fin_cases i <;>
      norm_num [Exp.boxMinus, mulVec, dotProduct, Fin.sum_univ_succ, h3]
  have hd : ({ w₁ with rate := ![0, -10, 0, 0, 0, 0] } : View).map.det = 0 := by
    rw [map_det, hJ]; norm_num
  have h1 : inverse (1 : M2) = .ok 1 := by simp [inverse]
  simp only [Term.evaluate, h1, Out.bind]
  have : inverse (({ w₁ with rate := ![0, -10, 0, 0, 0, 0] } : View).map * 1 *
      ({ w₁ with rate := ![0, -10, 0, 0, 0, 0] } : View).mapᵀ) = .ub := by
    simp [inverse, hd]
  rw [this]

/-- **C181**: without a spline the covariance of the keypoint is not used at all. -/
theorem C181_no_spline_counterexample (y yhat : V2) (W : M2) :
    ∃ t', Term.fresh.evaluate y yhat W none = .ok (t', (y - yhat) ⬝ᵥ (y - yhat)) :=
  ⟨⟨y - yhat, 1⟩, by simp only [Term.evaluate, Term.fresh, Term.invR, transpose_one, mul_one, one_mulVec]⟩

/-! ## The map -/

/-- Specification: the camera moves as `T`, and `p` is where the fixed point of the scene lies in the frame of the
camera; `ξ` is the velocity in the sense of the Jacobians of the spline. -/
structure Moves (T : ℝ → Matrix (Fin 4) (Fin 4) ℝ) (p : ℝ → V4) (ξ : Fin 6 → ℝ) (v : V4) (t : ℝ) : Prop where
  /-- `T` is differentiable and moves points as `boxMinus` says. -/
  rate : ∃ T' : Matrix (Fin 4) (Fin 4) ℝ, (∀ i j, HasDerivAt (fun s => T s i j) (T' i j) t) ∧
    ∀ x : V4, T'.mulVec x = (Exp.boxMinus ((T t).mulVec x)).mulVec ξ
  /-- The point is fixed in the scene. -/
  fixed : ∀ s, (T s).mulVec (p s) = (T t).mulVec (p t)
  /-- Its velocity in the frame of the camera. -/
  vel : HasDerivAt p v t

theorem Moves.velocity {T : ℝ → Matrix (Fin 4) (Fin 4) ℝ} {p : ℝ → V4} {ξ : Fin 6 → ℝ} {v : V4} {t : ℝ}
    (h : Moves T p ξ v t) : (T t).mulVec v = -(Exp.boxMinus ((T t).mulVec (p t))).mulVec ξ := by
  obtain ⟨⟨T', h1, h2⟩, hf, hv⟩ := h
  have hp (j : Fin 4) : HasDerivAt (fun s => p s j) (v j) t := (hasDerivAt_pi.mp hv) j
  have key : T'.mulVec (p t) + (T t).mulVec v = 0 := by
    ext i
    have hd : HasDerivAt (fun s => ∑ j, T s i j * p s j) (∑ j, (T' i j * p t j + T t i j * v j)) t := by
      refine HasDerivAt.fun_sum fun j _ => (h1 i j).mul (hp j)
    have hc : (fun s => ∑ j, T s i j * p s j) = fun _ => ((T t).mulVec (p t)) i := by
      funext s; exact congrFun (hf s) i
    rw [hc] at hd
    have := hd.unique (hasDerivAt_const t _)
    simp only [Finset.sum_add_distrib] at this
    exact this
  rw [h2] at key
  exact eq_neg_of_add_eq_zero_right key

/-- Specification: the error as a function of the measured keypoint: its row says when the point was seen. -/
def residual (proj : V4 → V2) (p : ℝ → V4) (t₀ delay : ℝ) (y : V2) : V2 := y - proj (p (t₀ + delay * y 1))

/-- How the error depends on the keypoint. -/
theorem residual_moves {proj : V4 → V2} {p : ℝ → V4} {t₀ delay : ℝ} {y : V2} {v : V4}
    {Jp : Matrix (Fin 2) (Fin 4) ℝ} {L : V4 →L[ℝ] V2} (hL : ∀ x, L x = Jp.mulVec x)
    (hd : HasFDerivAt proj L (p (t₀ + delay * y 1))) (hv : HasDerivAt p v (t₀ + delay * y 1)) (u : V2) :
    HasDerivAt (fun s : ℝ => residual proj p t₀ delay (y + s • u)) (u - (delay * u 1) • Jp.mulVec v) 0 := by
  have e1 : HasDerivAt (fun s : ℝ => y + s • u) u 0 := by
    have := ((hasDerivAt_id (0 : ℝ)).smul_const u).const_add y
    rw [one_smul] at this
    exact this
  have e2 : HasDerivAt (fun s : ℝ => t₀ + delay * (y + s • u) 1) (delay * u 1) 0 := by
    have := ((hasDerivAt_pi.mp e1) 1).const_mul delay
    exact this.const_add t₀
  have z : t₀ + delay * (y + (0 : ℝ) • u) 1 = t₀ + delay * y 1 := by simp
  have e3 : HasDerivAt (fun s : ℝ => p (t₀ + delay * (y + s • u) 1)) ((delay * u 1) • v) 0 :=
    HasDerivAt.scomp (0 : ℝ) (by rw [z]; exact hv) e2
  have e4 : HasDerivAt (fun s : ℝ => proj (p (t₀ + delay * (y + s • u) 1))) (L ((delay * u 1) • v)) 0 :=
    HasFDerivAt.comp_hasDerivAt (0 : ℝ) (by rw [z]; exact hd) e3
  rw [hL, mulVec_smul] at e4
  exact e1.sub e4

/-- Specification: the rotation is the identity. -/
def Upright (T : Matrix (Fin 4) (Fin 4) ℝ) : Prop :=
  ∀ x : V4, x 3 = 0 → T.mulVec x = x

/-- **C181**, in part: while the camera is oriented as the frame of the scene, the map is the derivative of the error
with respect to the measured keypoint, for every projection, motion and line delay: the covariance used is that of the
error.  Missing: other orientations, see below. -/
theorem C181_map_partial (w : View) (proj : V4 → V2) (L : V4 →L[ℝ] V2) (hL : ∀ x, L x = w.Jp.mulVec x)
    (T : ℝ → Matrix (Fin 4) (Fin 4) ℝ) (p : ℝ → V4) (v : V4) (t₀ : ℝ) (y : V2)
    (hm : Moves T p (w.JT.mulVec w.rate) v (t₀ + w.lineDelay * y 1))
    (hT : T (t₀ + w.lineDelay * y 1) = w.T) (hp : p (t₀ + w.lineDelay * y 1) = w.p)
    (hd : HasFDerivAt proj L w.p) (hlast : w.T 3 = ![0, 0, 0, 1]) (hup : Upright w.T) (u : V2) :
    HasDerivAt (fun s : ℝ => residual proj p t₀ w.lineDelay (y + s • u)) (w.map.mulVec u) 0 := by
  have hv := hm.velocity
  rw [hT, hp] at hv
  have h3 : v 3 = 0 := by
    have hb (q : V4) (z : Fin 6 → ℝ) : (Exp.boxMinus q).mulVec z 3 = 0 := by
      simp [mulVec, dotProduct, Exp.boxMinus, Fin.sum_univ_succ]
    have e : (w.T.mulVec v) 3 = v 3 := by
      simp [mulVec, dotProduct, hlast, Fin.sum_univ_succ]
    rw [← e, hv, Pi.neg_apply, hb, neg_zero]
  rw [hup v h3] at hv
  refine (residual_moves hL (by rw [hp]; exact hd) hm.vel u).congr_deriv ?_
  rw [hv]
  have hJ : w.J = w.lineDelay • w.Jp.mulVec ((Exp.boxMinus (w.T.mulVec w.p)).mulVec (w.JT.mulVec w.rate)) := by
    simp only [View.J, mulVec_mulVec, Matrix.mul_assoc]
  rw [mulVec_neg]
  generalize w.Jp.mulVec ((Exp.boxMinus (w.T.mulVec w.p)).mulVec (w.JT.mulVec w.rate)) = q at hJ ⊢
  ext i
  fin_cases i <;> simp [View.map, hJ, mulVec, dotProduct, Fin.sum_univ_two] <;> ring

/-- A quarter turn about the optical axis, and a motion along the first axis of the scene. -/
def quarter (s : ℝ) : Matrix (Fin 4) (Fin 4) ℝ := !![0, -1, 0, s; 1, 0, 0, 0; 0, 0, 1, 0; 0, 0, 0, 1]

theorem quarter_mulVec (s : ℝ) (x : V4) : (quarter s).mulVec x = ![-x 1 + s * x 3, x 0, x 2, x 3] := by
  ext i
  fin_cases i <;> simp [quarter, mulVec, dotProduct, Fin.sum_univ_succ] <;> rfl

/-- What a camera turned by a quarter sees while it moves. -/
noncomputable def w₂ : View where
  p := ![0, 0, 1, 1]
  Jp := !![100, 0, 0, 0; 0, 100, 0, 0]
  T := quarter 0
  JT := 1
  rate := ![1, 0, 0, 0, 0, 0]
  lineDelay := 1 / 1000

theorem quarter_moves : Moves quarter (fun s => ![0, s, 1, 1]) (w₂.JT.mulVec w₂.rate) ![0, 1, 0, 0] 0 where
  rate := by
    refine ⟨!![0, 0, 0, 1; 0, 0, 0, 0; 0, 0, 0, 0; 0, 0, 0, 0], fun i j => ?_, fun x => ?_⟩
    · fin_cases i <;> fin_cases j <;> first
        | exact hasDerivAt_id (0 : ℝ)
        | exact hasDerivAt_const (0 : ℝ) _
    · rw [quarter_mulVec, w₂, one_mulVec]
      ext i
      fin_cases i <;> simp [Exp.boxMinus, mulVec, dotProduct, Fin.sum_univ_succ]
  fixed s := by
    rw [quarter_mulVec, quarter_mulVec]
    ext i
    fin_cases i <;> simp
  vel := by
    rw [hasDerivAt_pi]
    intro i
    fin_cases i <;> first
      | exact hasDerivAt_id (0 : ℝ)
      | exact hasDerivAt_const (0 : ℝ) _

/-- What is missing in `C181_map_partial`: the code leaves out the rotation from the scene to the camera.  For a camera
turned by a quarter the map is not the derivative of the error, although everything else is as there. -/
theorem C181_map_counterexample : ∃ (w : View) (proj : V4 → V2) (L : V4 →L[ℝ] V2)
    (T : ℝ → Matrix (Fin 4) (Fin 4) ℝ) (p : ℝ → V4) (v : V4) (t₀ : ℝ) (y u d : V2),
    (∀ x, L x = w.Jp.mulVec x) ∧ Moves T p (w.JT.mulVec w.rate) v (t₀ + w.lineDelay * y 1) ∧
    T (t₀ + w.lineDelay * y 1) = w.T ∧ p (t₀ + w.lineDelay * y 1) = w.p ∧ HasFDerivAt proj L w.p ∧
    w.T 3 = ![0, 0, 0, 1] ∧ w.T.transpose.submatrix (Fin.castLE (n := 3) (by decide)) (Fin.castLE (n := 3) (by decide)) *
      w.T.submatrix (Fin.castLE (n := 3) (by decide)) (Fin.castLE (n := 3) (by decide)) = 1 ∧
    HasDerivAt (fun s : ℝ => residual proj p t₀ w.lineDelay (y + s • u)) d 0 ∧ d ≠ w.map.mulVec u := by
  have z : (0 : ℝ) + w₂.lineDelay * (0 : V2) 1 = 0 := by simp
  refine ⟨w₂, (w₂.Jp.mulVecLin.toContinuousLinearMap : V4 → V2), w₂.Jp.mulVecLin.toContinuousLinearMap, quarter,
    fun s => ![0, s, 1, 1], ![0, 1, 0, 0], 0, 0, ![0, 1], _, fun x => rfl, ?_, ?_, ?_,
    ContinuousLinearMap.hasFDerivAt _, rfl, ?_,
    residual_moves (Jp := w₂.Jp) (v := ![0, 1, 0, 0]) (fun x => rfl) (ContinuousLinearMap.hasFDerivAt _) ?_ _, ?_⟩
  · rw [z]; exact quarter_moves
  · rw [z]; rfl
  · rw [z]; rfl
  · ext i j
    fin_cases i <;> fin_cases j <;> simp [w₂, quarter, Matrix.mul_apply, Fin.sum_univ_succ]
  · rw [z]; exact quarter_moves.vel
  · intro h
    have h1 := congrFun h 1
    have hJ : w₂.J 1 = 0 := by
      simp only [View.J, w₂, quarter_mulVec, Matrix.mul_one]
      simp [Exp.boxMinus, mulVec, dotProduct, Matrix.mul_apply, Fin.sum_univ_succ]
    simp [View.map, hJ, mulVec, dotProduct, Fin.sum_univ_succ] at h1
    simp [w₂] at h1

/-- A camera that moves along the first axis of the scene, which it is oriented along. -/
def straight (s : ℝ) : Matrix (Fin 4) (Fin 4) ℝ := !![1, 0, 0, s; 0, 1, 0, 0; 0, 0, 1, 0; 0, 0, 0, 1]

theorem straight_mulVec (s : ℝ) (x : V4) : (straight s).mulVec x = ![x 0 + s * x 3, x 1, x 2, x 3] := by
  ext i
  fin_cases i <;> simp [straight, mulVec, dotProduct, Fin.sum_univ_succ] <;> rfl

/-- The hypotheses of `C181_map_partial` are met by it. -/
example : Moves straight (fun s => ![-s, 0, 1, 1]) (w₂.JT.mulVec w₂.rate) ![-1, 0, 0, 0] 0 ∧ Upright (straight 0) ∧
    straight 0 3 = ![0, 0, 0, 1] := by
  refine ⟨⟨⟨!![0, 0, 0, 1; 0, 0, 0, 0; 0, 0, 0, 0; 0, 0, 0, 0], fun i j => ?_, fun x => ?_⟩, fun s => ?_, ?_⟩,
    fun x hx => ?_, rfl⟩
  · fin_cases i <;> fin_cases j <;> first
      | exact hasDerivAt_id (0 : ℝ)
      | exact hasDerivAt_const (0 : ℝ) _
  · rw [straight_mulVec, w₂, one_mulVec]
    ext i
    fin_cases i <;> simp [Exp.boxMinus, mulVec, dotProduct, Fin.sum_univ_succ]
  · rw [straight_mulVec, straight_mulVec]
    ext i
    fin_cases i <;> simp
  · rw [hasDerivAt_pi]
    intro i
    fin_cases i <;> first
      | exact (hasDerivAt_id (0 : ℝ)).neg
      | exact hasDerivAt_const (0 : ℝ) _
  · rw [straight_mulVec]
    ext i
    fin_cases i <;> simp [hx] <;> rfl

end Kalibr.RsCov
