import Verif.Expr.Props
import Verif.Reproj.Cameras

/-!
# Reprojection errors (C106)

The error term of an observation is the observation less the keypoint the camera gives for a point of the scene; its
Jacobians are the derivative of that, with respect to all design variables of the point and of the camera together.
-/

namespace Kalibr.Reproj

open Kalibr.Camera Matrix

variable {C : Type} {ni nd : ℕ}

/-- Specification: what a design variable of the camera is moved by. -/
def moved {n : ℕ} (active : Bool) (v : Fin n → ℝ) : Fin n → ℝ := if active then v else 0

/-- Specification: what the block of a design variable contributes; nothing if there is none. -/
def through {n : ℕ} (J : Option (Matrix (Fin 2) (Fin n) ℝ)) (v : Fin n → ℝ) : V2 :=
  match J with
  | none => 0
  | some J => J.mulVec v

/-- Specification: the point depends on `s` and is differentiable, and so the error. -/
theorem error_derivative {K : CamClass C ni nd} {cam : C} {p : ℝ → V4} {ξ : V4} {JI : Matrix (Fin 2) (Fin ni) ℝ}
    {JD : Matrix (Fin 2) (Fin nd) ℝ} {J : Matrix (Fin 2) (Fin 4) ℝ}
    (hj : IsJointJacobianAt (keypointAfter K cam) JI JD J 0 0 (p 0)) (hp : HasDerivAt p ξ 0) (y : V2)
    (v : Fin ni → ℝ) (w : Fin nd → ℝ) :
    ∃ e : ℝ → V2, (∀ᶠ s in nhds 0, keypointAfter K cam (s • v) (s • w) (p s) = some (y - e s)) ∧
      HasDerivAt e (-(JI.mulVec v) - JD.mulVec w - J.mulVec ξ) 0 := by
  obtain ⟨g, hev, L, hL, hd⟩ := hj
  have hs {n : ℕ} (u : Fin n → ℝ) : HasDerivAt (fun s : ℝ => s • u) u 0 := by
    simpa using (hasDerivAt_id (0 : ℝ)).smul_const u
  have hi : HasDerivAt (fun s : ℝ => (s • v, s • w, p s)) (v, w, ξ) 0 := (hs v).prodMk ((hs w).prodMk hp)
  have h0 : ((0 : ℝ) • v, (0 : ℝ) • w, p 0) = (0, 0, p 0) := by simp
  have hc := hi.continuousAt
  refine ⟨fun s => y - g (s • v, s • w, p s), ?_, ?_⟩
  · have ht : Filter.Tendsto (fun s : ℝ => (s • v, s • w, p s)) (nhds 0) (nhds (0, 0, p 0)) := by
      rw [← h0]; exact hc
    filter_upwards [ht.eventually hev] with s h
    rw [h]
    congr 1
    abel
  · have h1 := HasFDerivAt.comp_hasDerivAt (0 : ℝ) (l := g) (f := fun s : ℝ => (s • v, s • w, p s))
      (by rw [h0]; exact hd) hi
    have h2 := h1.const_sub y
    rw [hL] at h2
    refine h2.congr_deriv ?_
    simp only
    abel

theorem lin_neg {t : Exp.Expr .hom} {f : ℕ → (k : Exp.Kind) × Exp.Expr k} {x : Exp.State} (hw : Exp.WF f t)
    (hr : Exp.Regular x t) (m : Exp.Cache) (δ : Exp.Incr) :
    ∃ ξ : V4, HasDerivAt (fun s => Exp.val (Exp.along x δ s) t) ξ 0 ∧
      ∀ J : Matrix (Fin 2) (Fin 4) ℝ,
        Exp.lin (Exp.jac x t (k := .hom) (-J) (Exp.eval x t m).2).1 δ = -(J.mulVec ξ) := by
  obtain ⟨ξ, h1, h2, -⟩ := Exp.C93_jacobian f x t hw hr m _ (Exp.Steps.refl _) δ
  have h3 : (fun s => (Exp.eval (Exp.along x δ s) t m).1) = fun s => Exp.val (Exp.along x δ s) t := by
    funext s; exact (Exp.C93_value f _ t hw m).1
  refine ⟨ξ, ?_, fun J => ?_⟩
  · have := h1 fun _ => m
    rw [h3] at this
    exact this
  · exact (h2 2 (-J)).trans (Matrix.neg_mulVec _ _)

/-- **C106** (value).  The error is the observation less the keypoint of the point, and its weight is the squared norm
under the inverse covariance.  When the camera does not project the point, nothing at all is known of the value. -/
theorem C106_value (f : ℕ → (k : Exp.Kind) × Exp.Expr k) (K : CamClass C ni nd) (cam : C) (x : Exp.State) (t : Term)
    (hw : Exp.WF f t.point) (m : Exp.Cache) :
    (∀ k, K.projectH cam (Exp.val x t.point) = some k →
      (t.evaluateError K cam x m).1 = .ok (t.y - k, (t.y - k) ⬝ᵥ t.invR.mulVec (t.y - k)) ∧
      (t.predicted K cam x m).1 = .ok k) ∧
    (K.projectH cam (Exp.val x t.point) = none →
      (t.evaluateError K cam x m).1 = .ub ∧ (t.predicted K cam x m).1 = .ub) := by
  have h := (Exp.C93_value f x t.point hw m).1
  constructor
  · intro k hk
    simp only [Term.evaluateError, Term.predicted, h, hk, and_self]
  · intro hk
    simp only [Term.evaluateError, Term.predicted, h, hk, and_self]

/-- **C106** (Jacobian).  Whatever the members of the nodes hold: let the design variables of the point move by `s δ`,
and the active ones of the camera by `s v` and `s w`.  The error then moves at `s = 0` with the velocity that the
blocks give.  A block is there for each active design variable of the camera and for each of the point, and for no
other, and all of them are registered with the error term. -/
theorem C106_jacobian (f : ℕ → (k : Exp.Kind) × Exp.Expr k) (K : CamClass C ni nd) (cam : C) (x : Exp.State) (t : Term)
    (hw : Exp.WF f t.point) (hr : Exp.Regular x t.point) (hJ : JacobiansCorrect K cam (Exp.val x t.point))
    (a : Active) (m : Exp.Cache) :
    ∃ b, (t.evaluateJacobians K cam a x m).1 = .ok b ∧
      b.projection.isSome = a.projection ∧ b.distortion.isSome = a.distortion ∧
      (∀ d, d ∈ b.point.map Sigma.fst ↔ CamDV.point d ∈ t.dvs) ∧
      CamDV.projection ∈ t.dvs ∧ CamDV.distortion ∈ t.dvs ∧
      ∀ (δ : Exp.Incr) (v : Fin ni → ℝ) (w : Fin nd → ℝ), ∃ e : ℝ → V2,
        (∀ᶠ s in nhds 0, ∃ cam', K.updateD (K.updateI cam (s • moved a.projection v)) (s • moved a.distortion w) = .ok cam' ∧
          ∀ m', (t.evaluateError K cam' (Exp.along x δ s) m').1 = .ok (e s, e s ⬝ᵥ t.invR.mulVec (e s))) ∧
        HasDerivAt e (Exp.lin b.point δ + through b.projection v + through b.distortion w) 0 := by
  obtain ⟨JI, JD, J, eI, eD, eJ, hj⟩ := hJ
  have hv := (Exp.C93_value f x t.point hw m).1
  refine ⟨⟨(Exp.jac x t.point (k := .hom) (-J) (Exp.eval x t.point m).2).1, if a.projection then some (-JI) else none,
    if a.distortion then some (-JD) else none⟩, ?_, ?_, ?_, fun d => ?_, ?_, ?_, fun δ v w => ?_⟩
  · simp only [Term.evaluateJacobians, Term.pointBlocks, hv, eJ, cameraBlocks, block, eI, eD, Out.ok_bind]
    cases a.projection <;> cases a.distortion <;> rfl
  · cases a.projection <;> rfl
  · cases a.distortion <;> rfl
  · rw [((Exp.C94_complete f x t.point hw _ d).1 2 (-J))]
    simp [Term.dvs]
  · simp [Term.dvs]
  · simp [Term.dvs]
  · obtain ⟨ξ, h1, h2⟩ := lin_neg hw hr m δ
    rw [← Exp.along_zero x δ t.point hr] at hj
    obtain ⟨e, he, hd⟩ := error_derivative hj h1 t.y (moved a.projection v) (moved a.distortion w)
    refine ⟨e, ?_, hd.congr_deriv ?_⟩
    · filter_upwards [he] with s hs
      unfold keypointAfter at hs
      cases hc : K.updateD (K.updateI cam (s • moved a.projection v)) (s • moved a.distortion w) with
      | ok cam' =>
        rw [hc] at hs
        refine ⟨cam', rfl, fun m' => ?_⟩
        have := ((C106_value f K cam' (Exp.along x δ s) t hw m').1 _ hs).1
        rw [this]
        simp
      | raise => rw [hc] at hs; simp at hs
      | ub => rw [hc] at hs; simp at hs
    · rw [h2]
      cases a.projection <;> cases a.distortion <;> simp [moved, through, Matrix.neg_mulVec] <;> abel

/-- **C106** (simple error terms).  The error term that keeps the camera fixed adds the same blocks for the point and none
for the camera, and with the camera as it is they are the derivative of the error. -/
theorem C106_simple (f : ℕ → (k : Exp.Kind) × Exp.Expr k) (K : CamClass C ni nd) (cam : C)
    (h0 : K.updateD (K.updateI cam 0) 0 = .ok cam) (x : Exp.State) (t : Term)
    (hw : Exp.WF f t.point) (hr : Exp.Regular x t.point) (hJ : JacobiansCorrect K cam (Exp.val x t.point))
    (m : Exp.Cache) :
    ∃ b, (t.evaluateJacobiansSimple K cam x m).1 = .ok b ∧ b.projection = none ∧ b.distortion = none ∧
      (∀ d, d ∈ b.point.map Sigma.fst ↔ d ∈ Exp.dvs t.point) ∧
      ∀ δ : Exp.Incr, ∃ e : ℝ → V2,
        (∀ᶠ s in nhds 0, ∀ m',
          (t.evaluateError K cam (Exp.along x δ s) m').1 = .ok (e s, e s ⬝ᵥ t.invR.mulVec (e s))) ∧
        HasDerivAt e (Exp.lin b.point δ) 0 := by
  obtain ⟨b, hb, hb1, hb2, hb3, -, -, hb4⟩ := C106_jacobian f K cam x t hw hr hJ ⟨false, false, false⟩ m
  have e1 : b.projection = none := by simpa using hb1
  have e2 : b.distortion = none := by simpa using hb2
  refine ⟨b, ?_, e1, e2, fun d => ?_, fun δ => ?_⟩
  · simp only [Term.evaluateJacobians, Term.evaluateJacobiansSimple] at hb ⊢
    cases hp : (t.pointBlocks K cam x m).1 with
    | ok r =>
      rw [hp] at hb
      simp only [Out.ok_bind, cameraBlocks, block] at hb ⊢
      exact hb
    | raise => rw [hp] at hb; cases hb
    | ub => rw [hp] at hb; cases hb
  · rw [hb3]; simp [Term.dvs]
  · obtain ⟨e, h1, h2⟩ := hb4 δ 0 0
    refine ⟨e, ?_, ?_⟩
    · filter_upwards [h1] with s hs
      obtain ⟨cam', hc, h⟩ := hs
      simp only [moved, smul_zero, Bool.false_eq_true, if_false] at hc
      rw [h0] at hc
      cases hc
      exact h
    · rw [e1, e2] at h2
      simpa [through] using h2

/-- **C106** (the hypothesis of `C106_simple`).  An update by zero leaves every camera whose distortion parameters are
valid as it is. -/
theorem C106_zero_update {n : ℕ} (F : Family n) :
    (∀ c : Cam (Frame n) n, F.valid c.k → (pinhole F).updateD ((pinhole F).updateI c 0) 0 = .ok c) ∧
    (∀ c : Cam (Omni n) n, F.valid c.k → (omni F).updateD ((omni F).updateI c 0) 0 = .ok c) ∧
    (∀ c, eucm.updateD (eucm.updateI c 0) 0 = .ok c) ∧ ∀ c, ds.updateD (ds.updateI c 0) 0 = .ok c := by
  refine ⟨fun c h => ?_, fun c h => ?_, fun c => ?_, fun c => ?_⟩
  · have : Pinhole.update c.proj 0 = c.proj := by simp [Pinhole.update]
    simp [pinhole, this, Family.update, h]
  · have : c.proj.update 0 = c.proj := by simp [Omni.update]
    simp [omni, this, Family.update, h]
  · simp [eucm, EUCM.update]
  · simp [ds, DS.update]

/-- **C106** (measurements).  Replacing the measurement or the covariance of an error term changes nothing else of it. -/
theorem C106_update_measurement (f : ℕ → (k : Exp.Kind) × Exp.Expr k) (K : CamClass C ni nd) (cam : C) (x : Exp.State)
    (t : Term) (hw : Exp.WF f t.point) (y : V2) (invR : M2) (m m' : Exp.Cache) (a : Active) (e : V2) (J : ℝ)
    (h : (t.evaluateError K cam x m).1 = .ok (e, J)) :
    (∃ J', ((t.updateMeasurement y).evaluateError K cam x m').1 = .ok (e + (y - t.y), J')) ∧
    ((t.updateMeasurementAndCovariance y invR).evaluateError K cam x m').1 =
      .ok (e + (y - t.y), (e + (y - t.y)) ⬝ᵥ invR.mulVec (e + (y - t.y))) ∧
    (t.updateMeasurementAndCovariance y invR).evaluateJacobians K cam a x m = t.evaluateJacobians K cam a x m := by
  have hv := C106_value f K cam x t hw m
  cases hk : K.projectH cam (Exp.val x t.point) with
  | none => rw [(hv.2 hk).1] at h; cases h
  | some k =>
    rw [(hv.1 k hk).1] at h
    obtain ⟨rfl, -⟩ : t.y - k = e ∧ _ := by simpa using h
    have e2 : t.y - k + (y - t.y) = y - k := by abel
    rw [e2]
    exact ⟨⟨_, ((C106_value f K cam x (t.updateMeasurement y) hw m').1 k hk).1⟩,
      ((C106_value f K cam x (t.updateMeasurementAndCovariance y invR) hw m').1 k hk).1, rfl⟩

/-! ## Cases -/

/-- The origin of the scene seen from a moving frame, as in calibration. -/
def demoPoint : Exp.Expr .hom := .trHom 2 (.trInv 1 (.trBasic (.rotDv 0) (.eucDv 0))) (.homConst ![0, 0, 0, 1])

def demoF : ℕ → (k : Exp.Kind) × Exp.Expr k
  | 1 => ⟨.tr, .trInv 1 (.trBasic (.rotDv 0) (.eucDv 0))⟩
  | _ => ⟨.hom, demoPoint⟩

theorem demo_wf : Exp.WF demoF demoPoint := by simp [Exp.WF, demoPoint, demoF]

theorem demo_regular : Exp.Regular Exp.demo demoPoint := by
  simp [Exp.Regular, demoPoint, Exp.demo, Kin.Unit4]

theorem demo_val : Exp.val Exp.demo demoPoint = ![-1, 2, 3, 1] := by
  have hq : Kin.quat2r ![1, 0, 0, 0] ∈ Kin.SO3 := Kin.C48_unit_gives_rotation _ (by simp [Kin.Unit4])
  simp only [Exp.val, demoPoint, Exp.demo]
  rw [Exp.rt_inv hq]
  funext i
  fin_cases i <;> simp [Kin.rt2Transform, Kin.quat2r, Matrix.mulVec, dotProduct, Fin.sum_univ_succ, Matrix.transpose]

/-- A pinhole camera with radial distortion. -/
noncomputable def demoCam : Cam (Frame 4) 4 := ⟨⟨400, 410, 320, 240, 640, 480, radtan 0⟩, ![1 / 10, 0, 0, 0]⟩

/-- Witness for the hypotheses of `C106_jacobian` and `C106_simple`. -/
example : Exp.WF demoF demoPoint ∧ Exp.Regular Exp.demo demoPoint ∧
    JacobiansCorrect (pinhole Family.radtan) demoCam (Exp.val Exp.demo demoPoint) ∧
    (pinhole Family.radtan).updateD ((pinhole Family.radtan).updateI demoCam 0) 0 = .ok demoCam := by
  refine ⟨demo_wf, demo_regular, ?_, (C106_zero_update _).1 _ trivial⟩
  rw [demo_val]
  exact C106_pinhole _ _ _ (by simp) (smooth_radtan _ _)

/-- An omnidirectional camera without distortion. -/
noncomputable def demoOmni : Cam (Omni 0) 0 := ⟨⟨⟨400, 410, 320, 240, 640, 480, noDistortion⟩, 1⟩, 0⟩

theorem demoOmni_projects (ph : V4) (h : ph 3 = 1) (hz : 0 < ph 2) :
    ∃ k, (omni Family.none).projectH demoOmni ph = some k := by
  have h0 : ¬ ph 3 < 0 := by rw [h]; norm_num
  have hn : 0 ≤ Omni.norm3 (head3 ph) := Real.sqrt_nonneg _
  have : ¬ head3 ph 2 ≤ -((demoOmni.omni Family.none).fovParameter * Omni.norm3 (head3 ph)) := by
    have e : (demoOmni.omni Family.none).fovParameter = 1 := by
      simp [Omni.fovParameter, Cam.omni, demoOmni]
    rw [e]
    have : head3 ph 2 = ph 2 := by simp [head3]
    rw [this]
    linarith
  simp [omni, Omni.projectH, h0, Omni.project, this]

/-- Witness for the hypotheses of `C106_omni`. -/
example : ∃ k, (omni Family.none).projectH demoOmni ![-1, 2, 3, 1] = some k ∧ 0 ≤ demoOmni.proj.xi ∧
    SmoothAt Family.none demoOmni.k (demoOmni.proj.plane (front ![-1, 2, 3, 1])) := by
  obtain ⟨k, hk⟩ := demoOmni_projects ![-1, 2, 3, 1] (by simp) (by simp)
  exact ⟨k, hk, by simp [demoOmni], smooth_none _ _⟩

/-- An extended unified camera and a double sphere camera. -/
noncomputable def demoEucm : EUCM 0 := ⟨⟨400, 400, 320, 240, 640, 480, noDistortion⟩, 1 / 2, 1⟩
noncomputable def demoDs : DS 0 := ⟨⟨400, 410, 320, 240, 640, 480, noDistortion⟩, 0, 1 / 2⟩

/-- Witness for the hypotheses of `C106_eucm_partial`. -/
example : demoEucm.fu = demoEucm.fv ∧ 0 ≤ demoEucm.alpha ∧ demoEucm.alpha ≤ 1 ∧ 0 ≤ demoEucm.beta ∧
    ∃ k, eucm.projectH demoEucm ![-1, 2, 3, 1] = some k := by
  refine ⟨by simp [demoEucm], by simp [demoEucm], by simp [demoEucm]; norm_num, by simp [demoEucm], ?_⟩
  have : ¬ (3 : ℝ) ≤ -(demoEucm.fovParameter * demoEucm.dist (head3 ![-1, 2, 3, 1])) := by
    have e : demoEucm.fovParameter = 1 := by simp [EUCM.fovParameter, demoEucm]; norm_num
    have := demoEucm.dist_nonneg (head3 ![-1, 2, 3, 1])
    rw [e]; linarith
  have e2 : head3 ![-1, 2, 3, 1] 2 = (3 : ℝ) := by simp [head3]
  have h1 : ¬ (1 : ℝ) < 0 := by norm_num
  simp [eucm, EUCM.projectH, EUCM.project, e2, this, h1]

/-- Witness for the hypotheses of `C106_ds`. -/
example : 0 ≤ demoDs.alpha ∧ demoDs.alpha ≤ 1 ∧ -1 < demoDs.xi ∧
    -(2 * (if demoDs.alpha ≤ 1 / 2 then demoDs.alpha / (1 - demoDs.alpha) else (1 - demoDs.alpha) / demoDs.alpha))
      ≤ demoDs.xi ∧ ∃ k, ds.projectH demoDs ![-1, 2, 3, 1] = some k := by
  refine ⟨by simp [demoDs], by simp [demoDs]; norm_num, by simp [demoDs], by simp [demoDs]; norm_num, ?_⟩
  have : ¬ (3 : ℝ) ≤ -(demoDs.fovParameter * DS.d1 (head3 ![-1, 2, 3, 1])) := by
    have e : demoDs.fovParameter = 1 := by simp [DS.fovParameter, DS.temp, demoDs]; norm_num
    have := DS.d1_nonneg (head3 ![-1, 2, 3, 1])
    rw [e]; linarith
  have e2 : head3 ![-1, 2, 3, 1] 2 = (3 : ℝ) := by simp [head3]
  have h1 : ¬ (1 : ℝ) < 0 := by norm_num
  simp [ds, DS.projectH, DS.project, e2, this, h1]

/-- **C106 fails for points the camera does not project:** the error term does not look at whether the projection
succeeded, and evaluates an uninitialised keypoint.  Here the point is behind an omnidirectional camera. -/
theorem C106_unprojectable_counterexample :
    ∃ (cam : Cam (Omni 0) 0) (t : Term) (x : Exp.State) (f : ℕ → (k : Exp.Kind) × Exp.Expr k), 0 ≤ cam.proj.xi ∧
      Exp.WF f t.point ∧ Exp.Regular x t.point ∧ Exp.val x t.point 3 ≠ 0 ∧
      ∀ m, (t.evaluateError (omni Family.none) cam x m).1 = .ub := by
  have hw : Exp.WF demoF (.homConst ![0, 0, -1, 1]) := by simp [Exp.WF]
  refine ⟨demoOmni, ⟨0, 1, .homConst ![0, 0, -1, 1]⟩, Exp.demo, demoF, by simp [demoOmni], hw, by simp [Exp.Regular],
    by simp [Exp.val], fun m => ?_⟩
  refine ((C106_value demoF _ _ _ ⟨0, 1, .homConst ![0, 0, -1, 1]⟩ hw m).2 ?_).1
  have e : (demoOmni.omni Family.none).fovParameter = 1 := by simp [Omni.fovParameter, Cam.omni, demoOmni]
  have h1 : ¬ (1 : ℝ) < 0 := by norm_num
  simp [Exp.val, omni, Omni.projectH, Omni.project, e, head3, Omni.norm3, h1]

end Kalibr.Reproj
