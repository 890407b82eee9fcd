import Verif.Reproj.Props
import Verif.Geometry.Lemmas

/-!
# Cameras as one vector of parameters (C107)
-/

namespace Kalibr.Geometry

open Kalibr.Camera Kalibr.Reproj Matrix

variable {C : Type} {ni nd : ℕ}

/-! ## Specification -/

/-- Specification: a vector as a pointer to its entries. -/
def pointer {n : ℕ} (v : Fin n → ℝ) : ℕ → ℝ := fun o => if h : o < n then v ⟨o, h⟩ else 0

/-- Specification: updates by zero leave the camera as it is. -/
def Steady (K : CamClass C ni nd) (cam : C) : Prop :=
  (∀ c, K.updateI c 0 = c) ∧ ∀ v, K.updateD (K.updateI cam v) 0 = .ok (K.updateI cam v)

/-- Specification: the keypoint of `p` after the camera was updated with the vector `v`. -/
noncomputable def keypointUpdated (K : CamClass C ni nd) (rs : Bool) (g : Geo C) (p : V4) (a : Active)
    (v : Fin (minimalDimensions ni nd rs a) → ℝ) : Option V2 :=
  match g.update K rs (pointer v) a with
  | .ok g' => K.projectH g'.cam p
  | _ => none

/-- Specification: a dynamic matrix of the right size as a matrix. -/
def Dyn.mat (J : Dyn) (m n : ℕ) : Matrix (Fin m) (Fin n) ℝ := .of fun i j => J.coeff i j

/-! ## Updates -/

/-- The part of a vector of all parameters for the projection, and the one for the distortion. -/
def segP (ni : ℕ) (a : Active) (v : ℕ → ℝ) : Fin ni → ℝ := if a.projection then fun i => v i else 0
def segD (ni nd : ℕ) (a : Active) (v : ℕ → ℝ) : Fin nd → ℝ := if a.distortion then fun i => v (i + dimP ni a) else 0

theorem update_form (K : CamClass C ni nd) (g : Geo C) (rs : Bool) (v : ℕ → ℝ) (a : Active) :
    g.update K rs v a =
      (if a.distortion then K.updateD (if a.projection then K.updateI g.cam fun i => v i else g.cam)
          fun i => v (i + dimP ni a)
        else .ok (if a.projection then K.updateI g.cam fun i => v i else g.cam)).bind fun c =>
      .ok ⟨c, if a.shutter ∧ rs then g.lineDelay + v (dimP ni a + dimD nd a) else g.lineDelay⟩ := by
  obtain ⟨p, d, s⟩ := a
  have hsh : (if s then shutterUpdate rs g.lineDelay fun o => v (o + (dimP ni ⟨p, d, s⟩ + dimD nd ⟨p, d, s⟩)) else g.lineDelay)
      = if s ∧ rs then g.lineDelay + v (dimP ni ⟨p, d, s⟩ + dimD nd ⟨p, d, s⟩) else g.lineDelay := by
    cases s <;> cases rs <;> simp [shutterUpdate]
  rw [← hsh]
  cases p <;> cases d <;>
    simp only [Geo.update, dimP, dimD, if_true, Bool.false_eq_true, if_false, Out.bind,
      Out.pure_eq, Out.ok_bind, Nat.add_zero, Nat.zero_add]
  · show _ = _
    cases K.updateD g.cam fun i => v i <;> rfl
  · cases hc : K.updateD (K.updateI g.cam fun i => v i) fun i => v (i + ni) with
    | ok c => simp [Nat.add_assoc, Nat.add_comm nd ni]
    | raise => rfl
    | ub => rfl

theorem update_eq {K : CamClass C ni nd} {g : Geo C} (hs : Steady K g.cam) (rs : Bool) (v : ℕ → ℝ) (a : Active) :
    g.update K rs v a = (K.updateD (K.updateI g.cam (segP ni a v)) (segD ni nd a v)).bind fun c =>
      .ok ⟨c, if a.shutter ∧ rs then g.lineDelay + v (dimP ni a + dimD nd a) else g.lineDelay⟩ := by
  have h0 : K.updateI g.cam 0 = g.cam := hs.1 _
  have h1 (w) := hs.2 w
  have h2 : K.updateD g.cam 0 = .ok g.cam := by have := h1 0; rwa [h0] at this
  rw [update_form]
  unfold segP segD
  by_cases hp : a.projection <;> by_cases hd : a.distortion <;> simp [hp, hd, h0, h1, h2]

theorem pointer_of_lt {n : ℕ} (v : Fin n → ℝ) {o : ℕ} (h : o < n) : pointer v o = v ⟨o, h⟩ := dif_pos h

/-- **C107** (reads).  An update reads no more of the vector than `minimalDimensions` says. -/
theorem C107_update_reads (K : CamClass C ni nd) (rs : Bool) (g : Geo C) (a : Active) (v v' : ℕ → ℝ)
    (h : ∀ o < minimalDimensions ni nd rs a, v o = v' o) : g.update K rs v a = g.update K rs v' a := by
  rw [dims_eq] at h
  rw [update_form, update_form]
  have h1 : a.projection → (fun i : Fin ni => v i) = fun i : Fin ni => v' i := fun hp => by
    funext i; exact h _ (by simp only [dimP, hp, if_true]; omega)
  have h2 : a.distortion → (fun i : Fin nd => v (i + dimP ni a)) = fun i : Fin nd => v' (i + dimP ni a) := fun hp => by
    funext i; exact h _ (by simp only [dimD, hp, if_true]; omega)
  have h3 : a.shutter ∧ rs → v (dimP ni a + dimD nd a) = v' (dimP ni a + dimD nd a) := fun hp =>
    h _ (by simp [dimS, hp, shutterDims])
  have e1 : (if a.projection then K.updateI g.cam fun i => v i else g.cam) =
      if a.projection then K.updateI g.cam fun i => v' i else g.cam := by
    split_ifs with hp
    · rw [h1 hp]
    · rfl
  have e3 : (if a.shutter ∧ rs then g.lineDelay + v (dimP ni a + dimD nd a) else g.lineDelay) =
      if a.shutter ∧ rs then g.lineDelay + v' (dimP ni a + dimD nd a) else g.lineDelay := by
    split_ifs with hp
    · rw [h3 hp]
    · rfl
  rw [e1, e3]
  by_cases hd : a.distortion
  · simp only [hd, if_true, h2 hd]
  · simp only [hd, Bool.false_eq_true, if_false]

/-- A matrix that has the two Jacobians side by side. -/
structure Stacked (J : Dyn) (JI : Matrix (Fin 2) (Fin ni) ℝ) (JD : Matrix (Fin 2) (Fin nd) ℝ) (rs : Bool) (a : Active) :
    Prop where
  rows : J.rows = 2
  cols : J.cols = minimalDimensions ni nd rs a
  left : a.projection → ∀ (i : Fin 2) (j : Fin ni), J.coeff i j = JI i j
  right : a.distortion → ∀ (i : Fin 2) (j : Fin nd), J.coeff i (dimP ni a + j) = JD i j
  rest : ∀ (i : Fin 2) (j : ℕ), dimP ni a + dimD nd a ≤ j → J.coeff i j = 0

theorem Stacked.mulVec {J : Dyn} {JI : Matrix (Fin 2) (Fin ni) ℝ} {JD : Matrix (Fin 2) (Fin nd) ℝ} {rs : Bool}
    {a : Active} (h : Stacked J JI JD rs a) (v : Fin (minimalDimensions ni nd rs a) → ℝ) :
    (J.mat 2 (minimalDimensions ni nd rs a)).mulVec v =
      JI.mulVec (segP ni a (pointer v)) + JD.mulVec (segD ni nd a (pointer v)) := by
  funext i
  have h1 : (J.mat 2 (minimalDimensions ni nd rs a)).mulVec v i =
      ∑ o ∈ Finset.range (dimP ni a + dimD nd a + dimS rs a), J.coeff i o * pointer v o := by
    rw [← dims_eq ni nd rs a, Finset.sum_range]
    simp only [Matrix.mulVec, dotProduct, Dyn.mat, Matrix.of_apply, pointer, Fin.is_lt, dif_pos, Fin.eta]
  rw [h1, Finset.sum_range_add, Finset.sum_range_add]
  have h2 : ∑ x ∈ Finset.range (dimS rs a), J.coeff i (dimP ni a + dimD nd a + x) * pointer v (dimP ni a + dimD nd a + x)
      = 0 := Finset.sum_eq_zero fun x _ => by rw [h.rest i _ (by omega), zero_mul]
  rw [h2, add_zero]
  simp only [Pi.add_apply, Matrix.mulVec, dotProduct]
  congr 1
  · by_cases hp : a.projection
    · have hl := h.left hp
      simp only [dimP, segP, hp, if_true, Finset.sum_range, hl]
    · simp [dimP, segP, hp]
  · by_cases hp : a.distortion
    · have hl := h.right hp
      simp only [dimD, segD, hp, if_true, Finset.sum_range, hl]
      simp only [Nat.add_comm]
    · simp [dimD, segD, hp]

theorem stacked_derivative {K : CamClass C ni nd} {rs : Bool} {g : Geo C} {p : V4} {a : Active} (hs : Steady K g.cam)
    {JI : Matrix (Fin 2) (Fin ni) ℝ} {JD : Matrix (Fin 2) (Fin nd) ℝ} {JP : Matrix (Fin 2) (Fin 4) ℝ}
    (hj : IsJointJacobianAt (keypointAfter K g.cam) JI JD JP 0 0 p) {J : Dyn} (hJ : Stacked J JI JD rs a) :
    IsPartialJacobianAt (keypointUpdated K rs g p a) (J.mat 2 (minimalDimensions ni nd rs a)) 0 := by
  obtain ⟨G, hev, L, hL, hd⟩ := hj
  let T' : (Fin (minimalDimensions ni nd rs a) → ℝ) →ₗ[ℝ] (Fin ni → ℝ) × (Fin nd → ℝ) × V4 :=
    { toFun := fun v => (segP ni a (pointer v), segD ni nd a (pointer v), 0)
      map_add' := fun v w => by
        have hp (o : ℕ) : pointer (v + w) o = pointer v o + pointer w o := by
          unfold pointer; split_ifs <;> simp
        refine Prod.ext ?_ (Prod.ext ?_ (by simp))
        · funext i; simp only [segP, Prod.fst_add]; split_ifs <;> simp [hp]
        · funext i; simp only [segD, Prod.snd_add, Prod.fst_add]; split_ifs <;> simp [hp]
      map_smul' := fun r v => by
        have hp (o : ℕ) : pointer (r • v) o = r * pointer v o := by
          unfold pointer; split_ifs <;> simp
        refine Prod.ext ?_ (Prod.ext ?_ (by simp))
        · funext i; simp only [segP]; split_ifs <;> simp [hp]
        · funext i; simp only [segD]; split_ifs <;> simp [hp] }
  let T := LinearMap.toContinuousLinearMap T'
  have hT (v) : T v = (segP ni a (pointer v), segD ni nd a (pointer v), 0) := rfl
  have hh : HasFDerivAt (fun v => T v + (0, 0, p)) T 0 := T.hasFDerivAt.add_const _
  have h0 : T 0 + (0, 0, p) = ((0, 0, p) : (Fin ni → ℝ) × (Fin nd → ℝ) × V4) := by simp
  have e (v) : T v + (0, 0, p) = (segP ni a (pointer v), segD ni nd a (pointer v), p) := by rw [hT]; simp
  refine ⟨fun v => G (T v + (0, 0, p)), ?_, ?_⟩
  · have ht : Filter.Tendsto (fun v => T v + (0, 0, p)) (nhds 0) (nhds (0, 0, p)) := by
      have := hh.continuousAt.tendsto
      rwa [h0] at this
    filter_upwards [ht.eventually hev] with v hv
    rw [e] at hv ⊢
    rw [← hv]
    unfold keypointUpdated keypointAfter
    rw [update_eq hs]
    cases K.updateD (K.updateI g.cam (segP ni a (pointer v))) (segD ni nd a (pointer v)) <;> rfl
  · have hc := HasFDerivAt.comp (0 : Fin (minimalDimensions ni nd rs a) → ℝ) (by rw [h0]; exact hd) hh
    refine hc.congr_fderiv ?_
    ext v : 1
    simp only [ContinuousLinearMap.comp_apply, hL, hT]
    simp only [LinearMap.coe_toContinuousLinearMap', Matrix.toLin'_apply, hJ.mulVec, Matrix.mulVec_zero, add_zero]

theorem homogeneous_stacked {K : CamClass C ni nd} (rs : Bool) {g : Geo C} {p : V4} (a : Active)
    {JI : Matrix (Fin 2) (Fin ni) ℝ} {JD : Matrix (Fin 2) (Fin nd) ℝ} (eI : K.intrinsicsHJ g.cam p = some JI)
    (eD : K.distortionHJ g.cam p = some JD) :
    ∃ J, g.homogeneousIntrinsicsJacobian K rs p a = .ok J ∧ Stacked J JI JD rs a := by
  have hN := dims_eq ni nd rs a
  have lt2 (i : Fin 2) : (i : ℕ) < 2 := i.2
  have lt1 (i : Fin 2) : (i : ℕ) ≤ 1 := Nat.le_of_lt_succ i.2
  unfold Geo.homogeneousIntrinsicsJacobian
  simp only [eI, eD, written, Out.ok_bind]
  by_cases hp : a.projection <;> by_cases hd : a.distortion
  · obtain ⟨A, h1, h2, h3, h4⟩ := setBlock_ok (A := Dyn.zero 2 (minimalDimensions ni nd rs a)) (B := .of JI) (r := 0)
      (c := 0) (by simp) (by simp [hN, dimP, hp]; omega)
    obtain ⟨B, h5, h6, h7, h8⟩ := setBlock_ok (A := A) (B := .of JD) (r := 0) (c := ni) (by simp [h2])
      (by simp [h3, hN, dimP, dimD, hp, hd])
    refine ⟨B, by simp [hp, hd, h1, h5], by simp [h6, h2], by simp [h7, h3], fun _ i j => ?_, fun _ i j => ?_, fun i j hj => ?_⟩
    · rw [h8 _ _ (by simp [h2, lt2]), h4 _ _ (by simp [lt2]), if_neg (by omega), if_pos (by simp [lt1])]
      simpa using of_coeff JI i j
    · rw [h8 _ _ (by simp [h2, lt2]), if_pos (by simp [dimP, hp, lt1])]
      simpa [dimP, hp] using of_coeff JD i j
    · simp [dimP, dimD, hp, hd] at hj
      rw [h8 _ _ (by simp [h2, lt2]), h4 _ _ (by simp [lt2]), if_neg (by simp; omega), if_neg (by simp; omega)]
      rfl
  · obtain ⟨A, h1, h2, h3, h4⟩ := setBlock_ok (A := Dyn.zero 2 (minimalDimensions ni nd rs a)) (B := .of JI) (r := 0)
      (c := 0) (by simp) (by simp [hN, dimP, hp]; omega)
    refine ⟨A, by simp [hp, hd, h1], by simp [h2], by simp [h3], fun _ i j => ?_, fun h => absurd h hd, fun i j hj => ?_⟩
    · rw [h4 _ _ (by simp [lt2]), if_pos (by simp [lt1])]
      simpa using of_coeff JI i j
    · simp [dimP, dimD, hp, hd] at hj
      rw [h4 _ _ (by simp [lt2]), if_neg (by simp; omega)]
      rfl
  · obtain ⟨B, h5, h6, h7, h8⟩ := setBlock_ok (A := Dyn.zero 2 (minimalDimensions ni nd rs a)) (B := .of JD) (r := 0)
      (c := 0) (by simp) (by simp [hN, dimP, dimD, hp, hd])
    refine ⟨B, by simp [hp, hd, h5], by simp [h6], by simp [h7], fun h => absurd h hp, fun _ i j => ?_, fun i j hj => ?_⟩
    · rw [h8 _ _ (by simp [lt2]), if_pos (by simp [dimP, hp, lt1])]
      simpa [dimP, hp] using of_coeff JD i j
    · simp [dimP, dimD, hp, hd] at hj
      rw [h8 _ _ (by simp [lt2]), if_neg (by simp; omega)]
      rfl
  · exact ⟨Dyn.zero 2 (minimalDimensions ni nd rs a), by simp [hp, hd], rfl, rfl, fun h => absurd h hp, fun h => absurd h hd,
      fun i j _ => rfl⟩

/-- **C107** (Jacobian).  The matrix of Jacobians has a column for each entry of the vector that `update` takes, and is
the derivative of the keypoint with respect to that vector, for every choice of the parts to estimate. -/
theorem C107_jacobian (K : CamClass C ni nd) (rs : Bool) (g : Geo C) (p : V4) (a : Active) (hs : Steady K g.cam)
    (hJ : JacobiansCorrect K g.cam p) :
    ∃ J, g.homogeneousIntrinsicsJacobian K rs p a = .ok J ∧ J.rows = 2 ∧ J.cols = minimalDimensions ni nd rs a ∧
      IsPartialJacobianAt (keypointUpdated K rs g p a) (J.mat 2 (minimalDimensions ni nd rs a)) 0 := by
  obtain ⟨JI, JD, J, eI, eD, -, hj⟩ := hJ
  obtain ⟨J, h1, h2⟩ := homogeneous_stacked rs a eI eD
  exact ⟨J, h1, h2.rows, h2.cols, stacked_derivative hs hj h2⟩

/-- **C107** (the hypotheses of `C107_jacobian`).  All cameras whose distortion parameters are valid are steady. -/
theorem C107_steady {n : ℕ} (F : Family n) :
    (∀ c : Cam (Frame n) n, F.valid c.k → Steady (pinhole F) c) ∧
    (∀ c : Cam (Omni n) n, F.valid c.k → Steady (omni F) c) ∧
    (∀ c, Steady eucm c) ∧ ∀ c, Steady ds c := by
  refine ⟨fun c h => ⟨fun c => ?_, fun v => ?_⟩, fun c h => ⟨fun c => ?_, fun v => ?_⟩, fun c => ⟨fun c => ?_, fun v => ?_⟩,
    fun c => ⟨fun c => ?_, fun v => ?_⟩⟩
  · simp [pinhole, Pinhole.update]
  · simp [pinhole, Family.update, h]
  · simp [omni, Omni.update]
  · simp [omni, Family.update, h]
  · simp [eucm, EUCM.update]
  · rfl
  · simp [ds, DS.update]
  · rfl

/-- Witness for the hypotheses of `C107_jacobian`. -/
example : Steady (pinhole Family.radtan) demoCam ∧
    JacobiansCorrect (pinhole Family.radtan) demoCam ![-1, 2, 3, 1] :=
  ⟨(C107_steady _).1 _ trivial, C106_pinhole _ _ _ (by simp) (smooth_radtan _ _)⟩

/-! ## Euclidean points -/

/-- The functions for Euclidean points are those for homogeneous ones at `(p, 1)`. -/
structure Matches (E : EucClass C ni nd) (K : CamClass C ni nd) : Prop where
  project : ∀ c p, E.project c p = K.projectH c ![p 0, p 1, p 2, 1]
  intrinsics : ∀ c p, E.intrinsicsJ c p = K.intrinsicsHJ c ![p 0, p 1, p 2, 1]
  distortion : ∀ c p, E.distortionJ c p = K.distortionHJ c ![p 0, p 1, p 2, 1]

theorem head3_cons (p : V3) : head3 ![p 0, p 1, p 2, 1] = p := by
  funext i; fin_cases i <;> simp [head3]

theorem front_cons (p : V3) : front ![p 0, p 1, p 2, 1] = p := by
  have : ¬ (1 : ℝ) < 0 := by norm_num
  simp [front, head3_cons, this]

theorem matches_pinhole {n : ℕ} (F : Family n) : Matches (pinholeE F) (pinhole F) := by
  have : ¬ (1 : ℝ) < 0 := by norm_num
  constructor <;> intro c p <;> simp [pinholeE, pinhole, front_cons, Pinhole.projectH, head3_cons, this]

theorem matches_omni {n : ℕ} (F : Family n) : Matches (omniE F) (omni F) := by
  have : ¬ (1 : ℝ) < 0 := by norm_num
  constructor <;> intro c p <;> simp [omniE, omni, front_cons, Omni.projectH, head3_cons, this]

theorem matches_eucm : Matches eucmE eucm := by
  have : ¬ (1 : ℝ) < 0 := by norm_num
  constructor <;> intro c p <;> simp [eucmE, eucm, front_cons, EUCM.projectH, head3_cons, this]

theorem matches_ds : Matches dsE ds := by
  have : ¬ (1 : ℝ) < 0 := by norm_num
  constructor <;> intro c p <;> simp [dsE, ds, front_cons, DS.projectH, head3_cons, this]

/-- Specification: the keypoint of the Euclidean point `p` after the camera was updated with the vector `v`. -/
noncomputable def keypointUpdatedE (K : CamClass C ni nd) (E : EucClass C ni nd) (rs : Bool) (g : Geo C) (p : V3) (a : Active)
    (v : Fin (minimalDimensions ni nd rs a) → ℝ) : Option V2 :=
  match g.update K rs (pointer v) a with
  | .ok g' => E.project g'.cam p
  | _ => none

/-- **C107** (Euclidean points), when the projection and the distortion are not both estimated. -/
theorem C107_euclidean_partial (K : CamClass C ni nd) (E : EucClass C ni nd) (hm : Matches E K) (rs : Bool) (g : Geo C)
    (p : V3) (a : Active) (ha : ¬ (a.projection ∧ a.distortion)) (hs : Steady K g.cam)
    (hJ : JacobiansCorrect K g.cam ![p 0, p 1, p 2, 1]) :
    ∃ J, g.euclideanIntrinsicsJacobian E rs p a = .ok J ∧ J.rows = 2 ∧ J.cols = minimalDimensions ni nd rs a ∧
      IsPartialJacobianAt (keypointUpdatedE K E rs g p a) (J.mat 2 (minimalDimensions ni nd rs a)) 0 := by
  have e : keypointUpdatedE K E rs g p a = keypointUpdated K rs g ![p 0, p 1, p 2, 1] a := by
    funext v
    simp only [keypointUpdatedE, keypointUpdated, hm.project]
  obtain ⟨J, h1, h2, h3, h4⟩ := C107_jacobian K rs g ![p 0, p 1, p 2, 1] a hs hJ
  refine ⟨J, ?_, h2, h3, by rw [e]; exact h4⟩
  rw [← h1]
  unfold Geo.euclideanIntrinsicsJacobian Geo.homogeneousIntrinsicsJacobian
  rw [hm.intrinsics, hm.distortion]
  by_cases hp : a.projection <;> by_cases hd : a.distortion
  · exact absurd ⟨hp, hd⟩ ha
  · simp [hp, hd]
  · simp [hp, hd]
  · simp [hp, hd]

/-- Witness for the hypotheses of `C107_euclidean_partial`. -/
example : Matches (pinholeE Family.radtan) (pinhole Family.radtan) ∧ Steady (pinhole Family.radtan) demoCam ∧
    JacobiansCorrect (pinhole Family.radtan) demoCam ![(![-1, 2, 3] : V3) 0, (![-1, 2, 3] : V3) 1, (![-1, 2, 3] : V3) 2, 1] :=
  ⟨matches_pinhole _, (C107_steady _).1 _ trivial, C106_pinhole _ _ _ (by simp) (smooth_radtan _ _)⟩

theorem partial_unique {n m : ℕ} {f : (Fin n → ℝ) → Option (Fin m → ℝ)} {J J' : Matrix (Fin m) (Fin n) ℝ} {x : Fin n → ℝ}
    (h : IsPartialJacobianAt f J x) (h' : IsPartialJacobianAt f J' x) : J = J' := by
  obtain ⟨g, h1, h2⟩ := h
  obtain ⟨g', h1', h2'⟩ := h'
  have e : g =ᶠ[nhds x] g' := by
    filter_upwards [h1, h1'] with v hv hv'
    rw [hv] at hv'
    exact Option.some.inj hv'
  have hu := HasFDerivAt.unique h2 (HasFDerivAt.congr_of_eventuallyEq h2' e)
  have : Matrix.toLin' J = Matrix.toLin' J' := by
    ext1 i
    ext1
    have := congrArg (fun L : (Fin n → ℝ) →L[ℝ] (Fin m → ℝ) => L (Pi.single i 1)) hu
    simpa using this
  exact Matrix.toLin'.injective this

/-- **C107** fails for Euclidean points when the projection and the distortion are both estimated: the block of the
distortion is written at the wrong place, over columns of the projection, and the result is not the derivative. -/
theorem C107_euclidean_counterexample :
    ∃ (g : Geo (Cam (Frame 4) 4)) (p : V3) (J : Dyn),
      JacobiansCorrect (pinhole Family.radtan) g.cam ![p 0, p 1, p 2, 1] ∧
      g.euclideanIntrinsicsJacobian (pinholeE Family.radtan) false p ⟨true, true, false⟩ = .ok J ∧
      ¬ IsPartialJacobianAt (keypointUpdatedE (pinhole Family.radtan) (pinholeE Family.radtan) false g p ⟨true, true, false⟩)
        (J.mat 2 (minimalDimensions 4 4 false ⟨true, true, false⟩)) 0 := by
  let g : Geo (Cam (Frame 4) 4) := ⟨demoCam, 0⟩
  let p : V3 := ![1, 2, 1]
  have hc : JacobiansCorrect (pinhole Family.radtan) g.cam ![p 0, p 1, p 2, 1] :=
    C106_pinhole _ _ _ (by simp [p]) (smooth_radtan _ _)
  obtain ⟨JI, JD, JP, eI, eD, -, hj⟩ := id hc
  have hm := matches_pinhole Family.radtan
  have hJ : ∃ J, g.euclideanIntrinsicsJacobian (pinholeE Family.radtan) false p ⟨true, true, false⟩ = .ok J ∧
      J.coeff 1 7 = 0 := by
    unfold Geo.euclideanIntrinsicsJacobian
    rw [hm.intrinsics, hm.distortion, eI, eD]
    simp only [written, Dyn.setBlock, Dyn.zero, minimalDimensions, of_rows, of_cols, if_true, Out.ok_bind, Out.pure_eq,
      Nat.reduceMul, Nat.reduceAdd, Nat.reduceSub, Nat.reduceLT, OfNat.ofNat_ne_zero, or_self, if_false,
      Bool.false_eq_true]
    exact ⟨_, rfl, by simp [Dyn.coeff]⟩
  obtain ⟨J, hJ, h0⟩ := hJ
  refine ⟨g, p, J, hc, hJ, fun h => ?_⟩
  obtain ⟨J', h1, h2⟩ := homogeneous_stacked false ⟨true, true, false⟩ eI eD
  have h3 := stacked_derivative ((C107_steady _).1 _ trivial) hj h2
  have e : keypointUpdatedE (pinhole Family.radtan) (pinholeE Family.radtan) false g p ⟨true, true, false⟩ =
      keypointUpdated (pinhole Family.radtan) false g ![p 0, p 1, p 2, 1] ⟨true, true, false⟩ := by
    funext v
    simp only [keypointUpdatedE, keypointUpdated, hm.project]
  rw [e] at h
  have h4 := congrFun (congrFun (partial_unique h h3) 1) (7 : Fin 8)
  have h5 := h2.right rfl 1 3
  have h6 : JD 1 3 = 0 := by
    rw [← h5]
    simp only [Dyn.mat, Matrix.of_apply] at h4
    exact h4.symm.trans h0
  have h7 : JD 1 3 ≠ 0 := by
    have e1 := eD
    simp only [pinhole, front_cons, Pinhole.distortionJ, Cam.frame, Family.radtan, radtan, Option.map_some,
      Option.some.injEq] at e1
    rw [← e1]
    simp [radtanParamJ, Pinhole.plane, g, p, demoCam]
  exact h7 h6

end Kalibr.Geometry
