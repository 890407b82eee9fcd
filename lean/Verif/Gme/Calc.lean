import Verif.Gme.Model
import Verif.Tactics
import Mathlib.Analysis.Calculus.FDeriv.Bilinear
import Mathlib.Analysis.Calculus.Deriv.Mul
import Mathlib.Topology.Algebra.Module.FiniteDimensionBilinear
import Mathlib.Analysis.Normed.Algebra.QuaternionExponential

/-! Derivatives of the operations of the generic matrix expressions. -/

namespace Kalibr.Gme

open Kalibr.Kin Kalibr.Exp Matrix

theorem VDeriv.bilin {n m k : ℕ} (B : (Fin n → ℝ) →ₗ[ℝ] (Fin m → ℝ) →ₗ[ℝ] (Fin k → ℝ)) {a : ℝ → Fin n → ℝ} {a' : Fin n → ℝ} {b : ℝ → Fin m → ℝ}
    {b' : Fin m → ℝ} (ha : VDeriv a a') (hb : VDeriv b b') : VDeriv (fun s => B (a s) (b s)) (B a' (b 0) + B (a 0) b') := by
  rw [vderiv_iff] at ha hb ⊢
  have h := ContinuousLinearMap.hasDerivAt_of_bilinear (B := LinearMap.toContinuousBilinearMap B) (fun _ => ha) (fun _ => hb)
  rw [add_comm]
  exact h

theorem VDeriv.lin {n k : ℕ} (L : (Fin n → ℝ) →ₗ[ℝ] (Fin k → ℝ)) {a : ℝ → Fin n → ℝ} {a' : Fin n → ℝ} (ha : VDeriv a a') :
    VDeriv (fun s => L (a s)) (L a') := by
  rw [vderiv_iff] at ha ⊢
  exact (LinearMap.toContinuousLinearMap L).hasFDerivAt.comp_hasDerivAt (0 : ℝ) ha

theorem VDeriv.add {n : ℕ} {a b : ℝ → Fin n → ℝ} {a' b' : Fin n → ℝ} (ha : VDeriv a a') (hb : VDeriv b b') :
    VDeriv (fun s => a s + b s) (a' + b') := fun i => (ha i).add (hb i)

theorem mderiv_vecOf {n : ℕ} {M : ℝ → Mat n 1} {M' : Mat n 1} (h : MDeriv M M') : VDeriv (fun s => vecOf (M s)) (vecOf M') := fun i => h i 0

theorem mderiv_colOf {n : ℕ} (c : ℕ) {v : ℝ → Fin n → ℝ} {v' : Fin n → ℝ} (h : VDeriv v v') : MDeriv (fun s => colOf c (v s)) (colOf c v') :=
  fun i _ => h i

/-! ## The operations of quaternions as linear maps -/

/-- The four cases of the mode and the four components. -/
macro "quat_cases" m:ident : tactic => `(tactic|
  (obtain ⟨rf, tr⟩ := $m; funext i; cases rf <;> cases tr <;> fin_cases i <;>
    simp [quatMult, quatMultV, multQQ, multQV, multVQ, conjugate, imagPart, fromLast, toLast, Mode.put, Mode.rI, Mode.iI, Mode.jI, Mode.kI] <;> try ring))

def multB (m : Mode) : V4 →ₗ[ℝ] V4 →ₗ[ℝ] V4 :=
  LinearMap.mk₂ ℝ (quatMult m) (fun a a' b => by quat_cases m) (fun c a b => by quat_cases m) (fun a b b' => by quat_cases m)
    (fun c a b => by quat_cases m)

def multVB (m : Mode) : V4 →ₗ[ℝ] V3 →ₗ[ℝ] V4 :=
  LinearMap.mk₂ ℝ (quatMultV m) (fun a a' b => by quat_cases m) (fun c a b => by quat_cases m) (fun a b b' => by quat_cases m)
    (fun c a b => by quat_cases m)

def conjL (m : Mode) : V4 →ₗ[ℝ] V4 := ⟨⟨conjugate m, fun a b => by quat_cases m⟩, fun c a => by quat_cases m⟩

def imagL (m : Mode) : V4 →ₗ[ℝ] V3 := ⟨⟨imagPart m, fun a b => by quat_cases m⟩, fun c a => by quat_cases m⟩

def fromLastL (m : Mode) : V4 →ₗ[ℝ] V4 := ⟨⟨fromLast m, fun a b => by quat_cases m⟩, fun c a => by quat_cases m⟩

@[simp] theorem multB_apply (m : Mode) (a b : V4) : multB m a b = quatMult m a b := rfl
@[simp] theorem multVB_apply (m : Mode) (a : V4) (b : V3) : multVB m a b = quatMultV m a b := rfl
@[simp] theorem conjL_apply (m : Mode) (a : V4) : conjL m a = conjugate m a := rfl
@[simp] theorem imagL_apply (m : Mode) (a : V4) : imagL m a = imagPart m a := rfl
@[simp] theorem fromLastL_apply (m : Mode) (a : V4) : fromLastL m a = fromLast m a := rfl

theorem fromLastM_mulVec (m : Mode) (M : Mat 4 3) (v : V3) : (fromLastM m M).mulVec v = fromLast m (M.mulVec v) := by
  obtain ⟨rf, tr⟩ := m
  funext i
  cases rf <;> fin_cases i <;> simp [fromLastM, fromLast, Mode.put, Matrix.mulVec, dotProduct, Fin.sum_univ_three]

/-! ## The exponential map -/

theorem norm3_sq (v : V3) : norm3 v * norm3 v = v 0 * v 0 + v 1 * v 1 + v 2 * v 2 := by
  unfold norm3; rw [Real.mul_self_sqrt (by positivity)]; ring

/-- The Jacobian of the exponential map in closed form. -/
theorem expJacobian_mulVec (v t : V3) (h : eps4 ≤ norm3 v) : (quatExpJacobian v).mulVec t =
    (let φ := norm3 v; let s := Real.sin (φ * (1 / 2)); let c := Real.cos (φ * (1 / 2)); let d := v 0 * t 0 + v 1 * t 1 + v 2 * t 2
     ![t 0 * (s / φ) + v 0 * ((c * (1 / 2) * φ - s) / φ ^ 3 * d), t 1 * (s / φ) + v 1 * ((c * (1 / 2) * φ - s) / φ ^ 3 * d),
      t 2 * (s / φ) + v 2 * ((c * (1 / 2) * φ - s) / φ ^ 3 * d), -(s * (1 / 2) / φ) * d]) := by
  have h0 : 0 < norm3 v := lt_of_lt_of_le eps4_pos h
  have hs := norm3_sq v
  have hsin : Real.sin (norm3 v) = 2 * Real.sin (norm3 v * (1 / 2)) * Real.cos (norm3 v * (1 / 2)) := by
    rw [← Real.sin_two_mul]; congr 1; ring
  have hcs := Real.sin_sq_add_cos_sq (norm3 v * (1 / 2))
  have hd2 : norm3 v / 2 = norm3 v * (1 / 2) := by ring
  unfold quatExpJacobian expDiffMat axisAngle2quat
  simp only [h0.ne', if_false, not_lt.mpr h, hd2, hsin]
  generalize Real.sin (norm3 v * (1 / 2)) = s at *
  generalize Real.cos (norm3 v * (1 / 2)) = c at *
  generalize norm3 v = φ at *
  obtain ⟨ψ, hψ⟩ : ∃ ψ, ψ = φ⁻¹ := ⟨_, rfl⟩
  have hq : ψ ^ 2 * (v 0 * v 0 + v 1 * v 1 + v 2 * v 2) = 1 := by rw [← hs, hψ]; field_simp
  have e1 : 2 * s * s / (φ * φ) = 2 * s ^ 2 * ψ ^ 2 := by rw [hψ]; field_simp
  have e2 : (1 - 2 * s * c / φ) / (φ * φ) = (1 - 2 * s * c * ψ) * ψ ^ 2 := by rw [hψ]; field_simp
  have e3 : (c * (1 / 2) * φ - s) / φ ^ 3 = c / 2 * ψ ^ 2 - s * ψ ^ 3 := by rw [hψ]; field_simp
  have e4 : s / φ = s * ψ := by rw [hψ]; rfl
  have e5 : s * (1 / 2) / φ = s * (1 / 2) * ψ := by rw [hψ]; rfl
  rw [e1, e2, e3, e4, e5, ← Matrix.mulVec_mulVec, ← Matrix.mulVec_mulVec]
  have hV (w : V3) : quatV.mulVec w = ![w 0 * (1 / 2), w 1 * (1 / 2), w 2 * (1 / 2), 0] := by
    apply ext4 <;> simp [quatV, Matrix.mulVec, dotProduct, Fin.sum_univ_three] <;> ring
  have hE (a b : ℝ) : (1 - a • crossMx v + b • (crossMx v * crossMx v)).mulVec t =
      t - a • crossProduct v t + b • crossProduct v (crossProduct v t) := by
    rw [Matrix.add_mulVec, Matrix.sub_mulVec, Matrix.one_mulVec, Matrix.smul_mulVec, Matrix.smul_mulVec, ← Matrix.mulVec_mulVec, crossMx_mulVec,
      crossMx_mulVec]
  rw [hE, hV]
  simp only [Pi.add_apply, Pi.sub_apply, Pi.smul_apply, smul_eq_mul, cross_apply]
  apply ext4
  · simp [quatOPlus, Matrix.mulVec, dotProduct, Fin.sum_univ_four]
    linear_combination (t 0 * s * ψ - s * ψ ^ 3 * v 0 * (v 0 * t 0 + v 1 * t 1 + v 2 * t 2)) * hcs +
      (-(1 / 2) * c * (1 - 2 * s * c * ψ) * t 0 - 1 / 2 * s * ψ * (1 - 2 * s * c * ψ) * (v 1 * t 2 - v 2 * t 1) + s ^ 3 * ψ * t 0) * hq
  · simp [quatOPlus, Matrix.mulVec, dotProduct, Fin.sum_univ_four]
    linear_combination (t 1 * s * ψ - s * ψ ^ 3 * v 1 * (v 0 * t 0 + v 1 * t 1 + v 2 * t 2)) * hcs +
      (-(1 / 2) * c * (1 - 2 * s * c * ψ) * t 1 - 1 / 2 * s * ψ * (1 - 2 * s * c * ψ) * (v 2 * t 0 - v 0 * t 2) + s ^ 3 * ψ * t 1) * hq
  · simp [quatOPlus, Matrix.mulVec, dotProduct, Fin.sum_univ_four]
    linear_combination (t 2 * s * ψ - s * ψ ^ 3 * v 2 * (v 0 * t 0 + v 1 * t 1 + v 2 * t 2)) * hcs +
      (-(1 / 2) * c * (1 - 2 * s * c * ψ) * t 2 - 1 / 2 * s * ψ * (1 - 2 * s * c * ψ) * (v 0 * t 1 - v 1 * t 0) + s ^ 3 * ψ * t 2) * hq
  · simp [quatOPlus, Matrix.mulVec, dotProduct, Fin.sum_univ_four]
    ring

theorem norm3_deriv {v : ℝ → V3} {v' : V3} (h : VDeriv v v') (h0 : 0 < norm3 (v 0)) :
    HasDerivAt (fun s => norm3 (v s)) ((v 0 0 * v' 0 + v 0 1 * v' 1 + v 0 2 * v' 2) / norm3 (v 0)) 0 := by
  have hp : v 0 0 ^ 2 + v 0 1 ^ 2 + v 0 2 ^ 2 ≠ 0 := by
    intro e; unfold norm3 at h0; rw [e] at h0; simp at h0
  have := ((((h 0).pow 2).add ((h 1).pow 2)).add ((h 2).pow 2)).sqrt hp
  refine this.congr_deriv ?_
  unfold norm3 at h0 ⊢
  simp
  field_simp

/-- The exponential map changes by its Jacobian. -/
theorem axisAngle2quat_deriv {v : ℝ → V3} {v' : V3} (h : VDeriv v v') (h0 : eps4 < norm3 (v 0)) :
    VDeriv (fun s => axisAngle2quat (v s)) ((quatExpJacobian (v 0)).mulVec v') := by
  have hp : 0 < norm3 (v 0) := lt_trans eps4_pos h0
  have hn := norm3_deriv h hp
  have hev : ∀ᶠ s in nhds (0 : ℝ), axisAngle2quat (v s) = ![v s 0 * (Real.sin (norm3 (v s) * (1 / 2)) / norm3 (v s)),
      v s 1 * (Real.sin (norm3 (v s) * (1 / 2)) / norm3 (v s)), v s 2 * (Real.sin (norm3 (v s) * (1 / 2)) / norm3 (v s)),
      Real.cos (norm3 (v s) * (1 / 2))] := by
    filter_upwards [hn.continuousAt.eventually_const_lt h0] with s hs
    unfold axisAngle2quat
    simp only [not_lt.mpr hs.le, if_false]
  rw [vderiv_iff]
  refine HasDerivAt.congr_of_eventuallyEq ?_ hev
  rw [← vderiv_iff, expJacobian_mulVec _ _ h0.le]
  have hs := (hn.mul_const (1 / 2)).sin.div hn hp.ne'
  have hc := (hn.mul_const (1 / 2)).cos
  have hh := hp.ne'
  have hk (i : Fin 3) : HasDerivAt (fun s => v s i * (Real.sin (norm3 (v s) * (1 / 2)) / norm3 (v s)))
      (v' i * (Real.sin (norm3 (v 0) * (1 / 2)) / norm3 (v 0)) + v 0 i * ((Real.cos (norm3 (v 0) * (1 / 2)) * (1 / 2) * norm3 (v 0) -
        Real.sin (norm3 (v 0) * (1 / 2))) / norm3 (v 0) ^ 3 * (v 0 0 * v' 0 + v 0 1 * v' 1 + v 0 2 * v' 2))) 0 := by
    refine ((h i).mul hs).congr_deriv ?_
    simp only [Pi.div_apply]
    field_simp
  intro i
  fin_cases i
  · exact hk 0
  · exact hk 1
  · exact hk 2
  · refine hc.congr_deriv ?_
    simp
    field_simp

theorem qexp_deriv (m : Mode) {v : ℝ → V3} {v' : V3} (h : VDeriv v v') (h0 : eps4 < norm3 ((2 : ℝ) • v 0)) :
    VDeriv (fun s => qexp m (v s)) ((dexp m (v 0)).mulVec v') := by
  have h2 : VDeriv (fun s => (2 : ℝ) • v s) ((2 : ℝ) • v') := fun i => (h i).const_mul 2
  have := VDeriv.lin (fromLastL m) (axisAngle2quat_deriv h2 h0)
  refine this.congr ?_
  unfold dexp
  rw [fromLastM_mulVec, Matrix.smul_mulVec, Matrix.mulVec_smul]
  rfl

theorem qexp_zero (m : Mode) : qexp m 0 = m.put 0 0 0 1 := by
  unfold qexp
  rw [smul_zero, axisAngle_zero]; rfl

theorem qexp_step (m : Mode) (d : V3) : VDeriv (fun s : ℝ => qexp m (s • d)) (m.put (d 0) (d 1) (d 2) 0) := by
  have := VDeriv.lin (fromLastL m) (axisAngle_deriv ((2 : ℝ) • d))
  have e : (fun s : ℝ => qexp m (s • d)) = fun s => fromLastL m (axisAngle2quat (s • (2 : ℝ) • d)) := by
    funext s; unfold qexp; rw [smul_comm]; rfl
  rw [e]
  refine this.congr ?_
  simp only [fromLastL_apply, fromLast, Pi.smul_apply, smul_eq_mul]
  congr 1 <;> simp <;> ring

theorem quatMult_one (m : Mode) (p : V4) : quatMult m p (m.put 0 0 0 1) = p ∧ quatMult m (m.put 0 0 0 1) p = p := by
  constructor <;> quat_cases m

/-- A step of a unit quaternion moves it by `dUpdate` times the step, in both geometries. -/
theorem updateQ_deriv (m : Mode) (g : Geo) (p : V4) (d : V3) : VDeriv (fun s : ℝ => updateQ m g p (s • d)) ((dUpdate m g p).mulVec d) := by
  have h := qexp_step m d
  have hc : VDeriv (fun _ : ℝ => p) 0 := VDeriv.const p
  have hu : (dUpdate m g p).mulVec d = fromLast m (Matrix.mulVec (fun i (j : Fin 3) => (if m.traditional ≠ decide (g = .right) then
      quatOPlus (toLast m p) else quatPlus (toLast m p)) i j.castSucc) d) := fromLastM_mulVec m _ d
  rw [hu]
  cases g
  · refine (VDeriv.bilin (multB m) hc h).congr ?_
    obtain ⟨rf, tr⟩ := m
    cases rf <;> cases tr <;> apply ext4 <;> simp [quatMult, multQQ, fromLast, toLast, Mode.put, Mode.rI, Mode.iI, Mode.jI, Mode.kI, Matrix.mulVec,
      dotProduct, Fin.sum_univ_three, quatOPlus, quatPlus, Fin.castSucc, Fin.castAdd, Fin.castLE] <;> try ring
  · refine (VDeriv.bilin (multB m) h hc).congr ?_
    obtain ⟨rf, tr⟩ := m
    cases rf <;> cases tr <;> apply ext4 <;> simp [quatMult, multQQ, fromLast, toLast, Mode.put, Mode.rI, Mode.iI, Mode.jI, Mode.kI, Matrix.mulVec,
      dotProduct, Fin.sum_univ_three, quatOPlus, quatPlus, Fin.castSucc, Fin.castAdd, Fin.castLE] <;> try ring

theorem updateQ_zero (m : Mode) (g : Geo) (p : V4) : updateQ m g p 0 = p := by
  cases g <;> simp only [updateQ, qexp_zero, (quatMult_one m p).1, (quatMult_one m p).2]

theorem upd_zero (x : St) : upd x 0 = x := by
  funext d
  cases d with
  | gen id n => simp [upd]
  | quat id m g => exact updateQ_zero m g _
  | vec id n => simp [upd]

/-! ## The inverse of a quaternion -/

theorem sqNorm_deriv {v : ℝ → V4} {v' : V4} (h : VDeriv v v') :
    HasDerivAt (fun s => sqNorm (v s)) (2 * (v 0 0 * v' 0 + v 0 1 * v' 1 + v 0 2 * v' 2 + v 0 3 * v' 3)) 0 := by
  refine (((((h 0).mul (h 0)).add ((h 1).mul (h 1))).add ((h 2).mul (h 2))).add ((h 3).mul (h 3))).congr_deriv ?_
  ring

theorem sqNorm_conj (m : Mode) (v : V4) : sqNorm (conjugate m v) = sqNorm v := by
  obtain ⟨rf, tr⟩ := m
  cases rf <;> simp [sqNorm, conjugate, Mode.put, Mode.rI, Mode.iI, Mode.jI, Mode.kI]

theorem sqNorm_pos {v : V4} (h : v ≠ 0) : 0 < sqNorm v := by
  have h0 : 0 ≤ sqNorm v := by unfold sqNorm; nlinarith [mul_self_nonneg (v 0), mul_self_nonneg (v 1), mul_self_nonneg (v 2), mul_self_nonneg (v 3)]
  refine lt_of_le_of_ne h0 fun e => h ?_
  have a0 := mul_self_nonneg (v 0); have a1 := mul_self_nonneg (v 1); have a2 := mul_self_nonneg (v 2); have a3 := mul_self_nonneg (v 3)
  unfold sqNorm at e
  apply ext4
  · exact mul_self_eq_zero.mp (by linarith)
  · exact mul_self_eq_zero.mp (by linarith)
  · exact mul_self_eq_zero.mp (by linarith)
  · exact mul_self_eq_zero.mp (by linarith)

theorem invert_deriv (m : Mode) {v : ℝ → V4} {v' : V4} (h : VDeriv v v') (h0 : v 0 ≠ 0) :
    VDeriv (fun s => invert m (v s)) ((1 / (sqNorm (conjugate m (v 0)) * sqNorm (conjugate m (v 0)))) •
      -quatMult m (conjugate m (v 0)) (quatMult m v' (conjugate m (v 0)))) := by
  have hc := VDeriv.lin (conjL m) h
  have hn := sqNorm_deriv hc
  have hp : sqNorm (conjugate m (v 0)) ≠ 0 := by rw [sqNorm_conj]; exact (sqNorm_pos h0).ne'
  have hq := (hasDerivAt_const (0 : ℝ) (1 : ℝ)).div hn hp
  intro i
  refine (hq.mul (hc i)).congr_deriv ?_
  simp only [conjL_apply] at *
  have hv : sqNorm (conjugate m (v 0)) = v 0 0 * v 0 0 + v 0 1 * v 0 1 + v 0 2 * v 0 2 + v 0 3 * v 0 3 := by rw [sqNorm_conj]; rfl
  simp only [Pi.smul_apply, Pi.neg_apply, smul_eq_mul]
  have key : ∀ i, -(quatMult m (conjugate m (v 0)) (quatMult m v' (conjugate m (v 0)))) i = sqNorm (conjugate m (v 0)) * conjugate m v' i -
      2 * (conjugate m (v 0) 0 * conjugate m v' 0 + conjugate m (v 0) 1 * conjugate m v' 1 + conjugate m (v 0) 2 * conjugate m v' 2 +
        conjugate m (v 0) 3 * conjugate m v' 3) * conjugate m (v 0) i := by
    intro i
    rw [hv]
    obtain ⟨rf, tr⟩ := m
    cases rf <;> cases tr <;> fin_cases i <;> simp [quatMult, multQQ, conjugate, Mode.put, Mode.rI, Mode.iI, Mode.jI, Mode.kI] <;> ring
  rw [key]
  simp only [Pi.div_apply]
  field_simp
  ring

end Kalibr.Gme
