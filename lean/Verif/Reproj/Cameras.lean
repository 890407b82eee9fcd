import Verif.Reproj.Spec
import Mathlib.Analysis.SpecialFunctions.Sqrt
import Mathlib.Analysis.SpecialFunctions.Trigonometric.ArctanDeriv

/-! C106: the Jacobians of the camera classes, taken together. -/

namespace Kalibr.Reproj

open Kalibr.Camera

theorem diff_div {E : Type} [NormedAddCommGroup E] [NormedSpace ℝ E] {f g : E → ℝ} {x : E}
    (hf : DifferentiableAt ℝ f x) (hg : DifferentiableAt ℝ g x) (h : g x ≠ 0) :
    DifferentiableAt ℝ (fun t => f t / g t) x := by
  simp only [div_eq_mul_inv]
  exact hf.fun_mul ((hasDerivAt_inv h).comp_hasFDerivAt x hg.hasFDerivAt).differentiableAt

/-! ## Distortions -/

/-- Specification: at parameters `k` and point `y` a distortion class is differentiable in both together, gives both
Jacobians correctly, and accepts all parameters near `k`. -/
def SmoothAt {n : ℕ} (F : Family n) (k : Fin n → ℝ) (y : V2) : Prop :=
  DifferentiableAt ℝ (fun t : (Fin n → ℝ) × V2 => (F.make t.1).distort t.2) (k, y) ∧
  PointJacobianCorrect (F.make k) y ∧ ParamJacobianCorrect F.make k y ∧ ∀ᶠ k' in nhds k, F.valid k'

theorem smooth_none (k : Fin 0 → ℝ) (y : V2) : SmoothAt Family.none k y := by
  refine ⟨?_, noDistortion_point y, ⟨_, rfl, ?_⟩, Filter.Eventually.of_forall fun _ => trivial⟩
  · simp only [Family.none, noDistortion]
    fun_prop
  · simp only [Family.none, noDistortion]
    refine isJacobianAt_iff.2 fun i => (gradAt_const (y i)).congr ?_
    funext j
    exact j.elim0

theorem smooth_radtan (k : Fin 4 → ℝ) (y : V2) : SmoothAt Family.radtan k y := by
  refine ⟨?_, C55_radtan_point k y, C55_radtan_parameters k y, Filter.Eventually.of_forall fun _ => trivial⟩
  simp only [Family.radtan, radtan, radtanDistort]
  refine differentiableAt_pi.2 fun i => ?_
  fin_cases i <;> simp <;> fun_prop

theorem diff_norm2 {n : ℕ} (k : Fin n → ℝ) {y : V2} (h : 0 < norm2 y) :
    DifferentiableAt ℝ (fun t : (Fin n → ℝ) × V2 => norm2 t.2) (k, y) := by
  have h0 : y 0 * y 0 + y 1 * y 1 ≠ 0 := by
    intro h0; unfold norm2 at h; simp [h0] at h
  unfold norm2
  exact DifferentiableAt.sqrt (by fun_prop) h0

theorem smooth_equidistant (k : Fin 4 → ℝ) (y : V2) (h : 1 / 10 ^ 8 < √(y 0 * y 0 + y 1 * y 1)) :
    SmoothAt Family.equidistant k y := by
  refine ⟨?_, C55_equidistant_point_partial k y h, C55_equidistant_parameters_partial k y h,
    Filter.Eventually.of_forall fun _ => trivial⟩
  change 1 / 10 ^ 8 < norm2 y at h
  have hpos : 0 < norm2 y := lt_trans (by norm_num) h
  have hev : ∀ᶠ t : (Fin 4 → ℝ) × V2 in nhds (k, y), 1 / 10 ^ 8 < norm2 t.2 :=
    (cont_norm2.comp continuous_snd).continuousAt.eventually (lt_mem_nhds h)
  have hn := diff_norm2 k hpos
  refine DifferentiableAt.congr_of_eventuallyEq (f := fun t : (Fin 4 → ℝ) × V2 => fun i : Fin 2 =>
    t.2 i * (Real.arctan (norm2 t.2) * eqPoly t.1 (Real.arctan (norm2 t.2)) / norm2 t.2)) ?_ ?_
  · refine differentiableAt_pi.2 fun i => ?_
    have ha : DifferentiableAt ℝ (fun t : (Fin 4 → ℝ) × V2 => Real.arctan (norm2 t.2)) (k, y) := hn.arctan
    simp only [eqPoly]
    refine DifferentiableAt.fun_mul (by fun_prop) (diff_div ?_ hn hpos.ne')
    fun_prop
  · filter_upwards [hev] with t ht
    funext i
    simp only [Family.equidistant, equidistant, eqDistort_of_lt _ _ ht]

theorem smooth_fov (k : Fin 1 → ℝ) (y : V2) (hk : 1 / 2 < k 0) (hk' : k 0 < 3 / 2) (hy : 1 / 10 ^ 5 < y 0 ^ 2 + y 1 ^ 2) :
    SmoothAt Family.fov k y := by
  have hc : Real.cos (k 0 / 2) ≠ 0 :=
    (Real.cos_pos_of_mem_Ioo ⟨by linarith [Real.pi_gt_three], by linarith [Real.pi_gt_three]⟩).ne'
  refine ⟨?_, C55_fov_point_partial _ _ (.inr hy.ne'), C55_fov_parameters_partial k y (by nlinarith) hc hy.le, ?_⟩
  · have hn : norm2 y * norm2 y = y 0 ^ 2 + y 1 ^ 2 := by rw [← sq, norm2_sq]; ring
    rw [← hn] at hy
    have hpos : 0 < norm2 y := by
      rcases (norm2_nonneg y).eq_or_lt with e | e
      · rw [← e] at hy; norm_num at hy
      · exact e
    have hd := diff_norm2 k hpos
    have hev1 : ∀ᶠ t : (Fin 1 → ℝ) × V2 in nhds (k, y), 1 / 10 ^ 5 < norm2 t.2 * norm2 t.2 :=
      ((cont_norm2.mul cont_norm2).comp continuous_snd).continuousAt.eventually (lt_mem_nhds hy)
    have hev2 : ∀ᶠ t : (Fin 1 → ℝ) × V2 in nhds (k, y), 1 / 2 < t.1 0 :=
      continuousAt_const.eventually_lt (by fun_prop) hk
    refine DifferentiableAt.congr_of_eventuallyEq (f := fun t : (Fin 1 → ℝ) × V2 => fun i : Fin 2 =>
      Real.arctan (2 * Real.tan (t.1 0 / 2) * norm2 t.2) / (norm2 t.2 * t.1 0) * t.2 i) ?_ ?_
    · refine differentiableAt_pi.2 fun i => ?_
      have htan : DifferentiableAt ℝ (fun t : (Fin 1 → ℝ) × V2 => Real.tan (t.1 0 / 2)) (k, y) :=
        DifferentiableAt.comp (g := Real.tan) (f := fun t : (Fin 1 → ℝ) × V2 => t.1 0 / 2) _
          (Real.differentiableAt_tan.2 hc) (by fun_prop)
      refine DifferentiableAt.fun_mul (diff_div ?_ (hd.fun_mul (by fun_prop)) ?_) (by fun_prop)
      · exact DifferentiableAt.arctan ((htan.const_mul 2).fun_mul hd)
      · exact mul_ne_zero hpos.ne' (by simp; linarith)
    · filter_upwards [hev1, hev2] with t h1 h2
      funext i
      simp only [Family.fov, fov, fovDistort]
      rw [fov_branch (by nlinarith) h1.le]
      simp
  · have h1 : ∀ᶠ t : Fin 1 → ℝ in nhds k, 1 / 2 < t 0 := continuousAt_const.eventually_lt (continuous_apply 0).continuousAt hk
    have h2 : ∀ᶠ t : Fin 1 → ℝ in nhds k, t 0 < 3 / 2 :=
      (continuous_apply 0).continuousAt.eventually_lt continuousAt_const hk'
    filter_upwards [h1, h2] with t a b
    exact .inr ⟨a.le, b.le⟩

/-! ## Common steps -/

theorem shift {n : ℕ} {f : (Fin n → ℝ) → Option V2} {J : Matrix (Fin 2) (Fin n) ℝ} {k : Fin n → ℝ}
    (h : IsPartialJacobianAt f J k) : IsPartialJacobianAt (fun w => f (k + w)) J 0 := by
  have h1 : IsJacobianAt (fun w : Fin n → ℝ => k + w) 1 0 := by
    unfold IsJacobianAt
    refine ((hasFDerivAt_id (0 : Fin n → ℝ)).const_add k).congr_fderiv ?_
    ext v
    simp
  have h' : IsPartialJacobianAt f J ((fun w : Fin n → ℝ => k + w) 0) := by simpa using h
  have := IsPartialJacobianAt.comp h' h1
  rwa [Matrix.mul_one] at this

theorem valid_near {a n : ℕ} {F : Family n} {k : Fin n → ℝ} {x : Fin a → ℝ} {z : V4}
    (h : ∀ᶠ k' in nhds k, F.valid k') :
    ∀ᶠ t : (Fin a → ℝ) × (Fin n → ℝ) × V4 in nhds (x, 0, z), F.valid (k + t.2.1) := by
  have hc : Filter.Tendsto (fun t : (Fin a → ℝ) × (Fin n → ℝ) × V4 => k + t.2.1) (nhds (x, 0, z)) (nhds k) := by
    have : ContinuousAt (fun t : (Fin a → ℝ) × (Fin n → ℝ) × V4 => k + t.2.1) (x, 0, z) := by fun_prop
    have h2 := this.tendsto
    simpa using h2
  exact hc.eventually h

theorem after_valid {P : Type} {n : ℕ} {F : Family n} (pr : P) {k w : Fin n → ℝ} (h : F.valid (k + w)) :
    F.update ⟨pr, k⟩ w = .ok ⟨pr, k + w⟩ := by simp [Family.update, h]

/-! ## Pinhole -/

theorem plane_front (ph : V4) : Pinhole.plane (front ph) = ![ph 0 / ph 2, ph 1 / ph 2] := by
  unfold front
  split_ifs <;> apply v2ext <;> simp [Pinhole.plane, head3] <;> ring

/-- **C106** (pinhole cameras).  Wherever the third coordinate of the point is not zero and the distortion is smooth, the
Jacobians of a pinhole camera with respect to its projection, its distortion and the point are together the derivative
of the keypoint. -/
theorem C106_pinhole {n : ℕ} (F : Family n) (c : Cam (Frame n) n) (ph : V4) (hz : ph 2 ≠ 0)
    (hF : SmoothAt F c.k ![ph 0 / ph 2, ph 1 / ph 2]) : JacobiansCorrect (pinhole F) c ph := by
  obtain ⟨hD, hP, hK, hV⟩ := hF
  have hv0 : F.valid (c.k + 0) := by rw [add_zero]; exact hV.self_of_nhds
  obtain ⟨J, e1, h1⟩ := C55_pinhole_homogeneous (c.frame F) ph hz hP
  obtain ⟨JD, e2, h2⟩ := C55_pinhole_distortion (c.frame F) F.make c.k rfl (front ph) (by rw [plane_front]; exact hK)
  have h3 := C55_pinhole_intrinsics (c.frame F) (front ph)
  have hH (f : Frame n) (q : V4) : (Pinhole.projectH f q).1 = (Pinhole.project f (front q)).1 := by
    unfold Pinhole.projectH front; split_ifs <;> rfl
  refine ⟨_, JD, J, rfl, e2, e1, joint_of_partials
    (g := fun t => (Pinhole.update c.proj t.1).toPixel
      ((F.make (c.k + t.2.1)).distort ![t.2.2 0 / t.2.2 2, t.2.2 1 / t.2.2 2])) ?_ ?_ ?_ ?_ ?_⟩
  · filter_upwards [valid_near hV] with t ht
    simp only [keypointAfter, pinhole, after_valid _ ht, hH, Pinhole.project, plane_front]
    rfl
  · have hin : DifferentiableAt ℝ (fun t : (Fin 4 → ℝ) × (Fin n → ℝ) × V4 =>
        (c.k + t.2.1, (![t.2.2 0 / t.2.2 2, t.2.2 1 / t.2.2 2] : V2))) (0, 0, ph) := by
      refine DifferentiableAt.prodMk (by fun_prop) (differentiableAt_pi.2 fun i => ?_)
      fin_cases i
      · exact diff_div (by fun_prop) (by fun_prop) hz
      · exact diff_div (by fun_prop) (by fun_prop) hz
    have hcomp := DifferentiableAt.comp (g := fun t : (Fin n → ℝ) × V2 => (F.make t.1).distort t.2)
      ((0, 0, ph) : (Fin 4 → ℝ) × (Fin n → ℝ) × V4) (by simpa using hD) hin
    have hc := differentiableAt_pi.1 hcomp
    refine differentiableAt_pi.2 fun i => ?_
    fin_cases i
    · have := hc 0
      simp only [Frame.toPixel, Pinhole.update]
      exact DifferentiableAt.fun_add (DifferentiableAt.fun_mul (by fun_prop) this) (by fun_prop)
    · have := hc 1
      simp only [Frame.toPixel, Pinhole.update]
      exact DifferentiableAt.fun_add (DifferentiableAt.fun_mul (by fun_prop) this) (by fun_prop)
  · refine h3.congr_of_eventuallyEq (Filter.Eventually.of_forall fun v => ?_)
    simp only [keypointAfter, pinhole, after_valid _ hv0, hH, add_zero]
    rfl
  · refine (shift h2).congr_of_eventuallyEq ?_
    have := valid_near (a := 0) (x := 0) (z := ph) hV
    have hw : ∀ᶠ w : Fin n → ℝ in nhds 0, F.valid (c.k + w) := by
      have hc : ContinuousAt (fun w : Fin n → ℝ => ((0, w, ph) : (Fin 0 → ℝ) × (Fin n → ℝ) × V4)) 0 := by fun_prop
      exact hc.tendsto.eventually this
    filter_upwards [hw] with w hw
    have hu : Pinhole.update c.proj 0 = c.proj := by simp [Pinhole.update]
    simp only [keypointAfter, pinhole, hH, hu, after_valid _ hw]
    rfl
  · refine h1.congr_of_eventuallyEq (Filter.Eventually.of_forall fun q => ?_)
    have hu : Pinhole.update c.proj 0 = c.proj := by simp [Pinhole.update]
    simp only [keypointAfter, pinhole, hu, after_valid _ hv0, add_zero]

/-! ## The other cameras -/

theorem widen_mulVec (C : Matrix (Fin 2) (Fin 3) ℝ) (q : V4) : (widen C).mulVec q = C.mulVec (head3 q) := by
  funext i
  simp [widen, Matrix.mulVec, dotProduct, Fin.sum_univ_four, Fin.sum_univ_three, head3]

/-- `head3` as a linear map. -/
noncomputable def head3L : V4 →L[ℝ] V3 :=
  LinearMap.toContinuousLinearMap (Matrix.toLin' (widen (1 : Matrix (Fin 3) (Fin 3) ℝ)))

theorem head3L_apply (q : V4) : head3L q = head3 q := by
  simp only [head3L, LinearMap.coe_toContinuousLinearMap', Matrix.toLin'_apply]
  funext i
  fin_cases i <;> simp [widen, Matrix.mulVec, dotProduct, Fin.sum_univ_four, head3, Matrix.one_apply]

/-- From Euclidean points to homogeneous ones of non-zero scale. -/
theorem lift_joint {a b : ℕ} {f : (Fin a → ℝ) → (Fin b → ℝ) → V3 → Option V2} {A : Matrix (Fin 2) (Fin a) ℝ}
    {B : Matrix (Fin 2) (Fin b) ℝ} {C : Matrix (Fin 2) (Fin 3) ℝ} {x : Fin a → ℝ} {y : Fin b → ℝ} {ph : V4}
    (h : ph 3 ≠ 0) (hj : IsJointJacobianAt f A B C x y (front ph)) :
    IsJointJacobianAt (fun v w q => f v w (front q)) A B (if ph 3 < 0 then -widen C else widen C) x y ph := by
  obtain ⟨g, hev, L, hL, hd⟩ := hj
  have hc : ContinuousAt (fun t : (Fin a → ℝ) × (Fin b → ℝ) × V4 => t.2.2 3) (x, y, ph) := by fun_prop
  have key (S : V4 →L[ℝ] V3) (hS : S ph = front ph)
      (he : ∀ᶠ t : (Fin a → ℝ) × (Fin b → ℝ) × V4 in nhds (x, y, ph), front t.2.2 = S t.2.2)
      (M : Matrix (Fin 2) (Fin 4) ℝ) (hM : ∀ q, M.mulVec q = C.mulVec (S q)) :
      IsJointJacobianAt (fun v w q => f v w (front q)) A B M x y ph := by
    let T : (Fin a → ℝ) × (Fin b → ℝ) × V4 →L[ℝ] (Fin a → ℝ) × (Fin b → ℝ) × V3 :=
      (ContinuousLinearMap.fst ℝ _ _).prod (((ContinuousLinearMap.fst ℝ _ _).comp (.snd ℝ _ _)).prod
        (S.comp ((ContinuousLinearMap.snd ℝ _ _).comp (.snd ℝ _ _))))
    have hT (t) : T t = (t.1, t.2.1, S t.2.2) := rfl
    have hT0 : T (x, y, ph) = (x, y, front ph) := by rw [hT]; simp [hS]
    refine ⟨fun t => g (T t), ?_, L.comp T, fun t => ?_, ?_⟩
    · have hcT : Filter.Tendsto T (nhds (x, y, ph)) (nhds (x, y, front ph)) := by
        rw [← hT0]; exact T.continuous.continuousAt
      filter_upwards [hcT.eventually hev, he] with t h1 h2
      rw [hT] at h1 ⊢
      rw [h2]
      exact h1
    · rw [ContinuousLinearMap.comp_apply, hL, hT, hM]
    · refine HasFDerivAt.comp _ ?_ T.hasFDerivAt
      rw [hT0]
      exact hd
  by_cases hn : ph 3 < 0
  · rw [if_pos hn]
    refine key (-head3L) (by simp [head3L_apply, front, hn]) ?_ _ fun q => ?_
    · filter_upwards [hc.eventually_lt continuousAt_const hn] with t ht
      simp [front, ht, head3L_apply]
    · simp [Matrix.neg_mulVec, widen_mulVec, head3L_apply, Matrix.mulVec_neg]
  · have hp : 0 < ph 3 := lt_of_le_of_ne (not_lt.1 hn) h.symm
    rw [if_neg hn]
    refine key head3L (by simp [head3L_apply, front, hn]) ?_ _ fun q => ?_
    · filter_upwards [ContinuousAt.eventually_lt continuousAt_const hc hp] with t ht
      simp [front, not_lt.2 ht.le, head3L_apply]
    · simp [widen_mulVec, head3L_apply]

theorem diff_coord {A B : Type} [NormedAddCommGroup A] [NormedSpace ℝ A] [NormedAddCommGroup B] [NormedSpace ℝ B]
    (i : Fin 3) (x : A × B × V3) : DifferentiableAt ℝ (fun t : A × B × V3 => t.2.2 i) x := by fun_prop

/-- **C106** (omnidirectional cameras).  At every homogeneous point of non-zero scale that the camera projects, with a
distortion that is smooth there, the three Jacobians are together the derivative of the keypoint. -/
theorem C106_omni {n : ℕ} (F : Family n) (c : Cam (Omni n) n) (hx : 0 ≤ c.proj.xi) (ph : V4) (h3 : ph 3 ≠ 0) (k : V2)
    (hk : (omni F).projectH c ph = some k) (hF : SmoothAt F c.k (c.proj.plane (front ph))) :
    JacobiansCorrect (omni F) c ph := by
  obtain ⟨hD, hP, hK, hV⟩ := hF
  have hH (f : Omni n) (q : V4) : (f.projectH q).1 = (f.project (front q)).1 := by
    unfold Omni.projectH front; split_ifs <;> rfl
  have hv0 : F.valid (c.k + 0) := by rw [add_zero]; exact hV.self_of_nhds
  have hu0 : c.proj.update 0 = c.proj := by simp [Omni.update]
  have hk' : ((c.omni F).project (front ph)).1 = some k := by rw [← hH]; exact hk
  obtain ⟨J, e1, h1⟩ := C55_omni_point (c.omni F) hx (front ph) k hk' hP
  obtain ⟨JD, e2, h2⟩ := C55_omni_distortion (c.omni F) F.make c.k rfl (front ph) k hk' hK
  obtain ⟨JI, e4, h4⟩ := C55_omni_intrinsics (c.omni F) hx (front ph) k hk' hP
  generalize hp : front ph = p at *
  have hacc : -(c.proj.fovParameter * Omni.norm3 p) < p 2 := by
    by_contra hcon
    have : p 2 ≤ -((c.omni F).fovParameter * Omni.norm3 p) := not_lt.1 hcon
    simp [Omni.project, this] at hk'
  obtain ⟨hd, hs, -⟩ := Omni.accepted hx hacc
  have hev : ∀ᶠ t : (Fin 5 → ℝ) × (Fin n → ℝ) × V3 in nhds (0, 0, p),
      -((c.proj.update t.1).fovParameter * Omni.norm3 t.2.2) < t.2.2 2 := by
    have c1 : Continuous fun t : (Fin 5 → ℝ) × (Fin n → ℝ) × V3 =>
        -((c.proj.update t.1).fovParameter * Omni.norm3 t.2.2) := by
      simp only [Omni.fovParameter_eq, Omni.update, Omni.norm3]
      refine (Continuous.mul (Continuous.div (by fun_prop) (by fun_prop) ?_) (by fun_prop)).neg
      intro v
      have := le_max_right (c.proj.xi + v.1 0) 1
      linarith
    have c2 : Continuous fun t : (Fin 5 → ℝ) × (Fin n → ℝ) × V3 => t.2.2 2 := by fun_prop
    exact c1.continuousAt.eventually_lt c2.continuousAt (by simpa only [hu0] using hacc)
  have hval : ∀ᶠ t : (Fin 5 → ℝ) × (Fin n → ℝ) × V3 in nhds (0, 0, p), F.valid (c.k + t.2.1) := by
    have hc : ContinuousAt (fun t : (Fin 5 → ℝ) × (Fin n → ℝ) × V3 => c.k + t.2.1) (0, 0, p) := by fun_prop
    have h2 := hc.tendsto
    simp only [add_zero] at h2
    exact h2.eventually hV
  have hw : ∀ᶠ w : Fin n → ℝ in nhds 0, F.valid (c.k + w) := by
    have hc : ContinuousAt (fun w : Fin n → ℝ => c.k + w) 0 := by fun_prop
    have h2 := hc.tendsto
    simp only [add_zero] at h2
    exact h2.eventually hV
  let f : (Fin 5 → ℝ) → (Fin n → ℝ) → V3 → Option V2 := fun v w q =>
    match F.update ⟨c.proj.update v, c.k⟩ w with
    | .ok c' => ((c'.omni F).project q).1
    | _ => none
  have hjoint : IsJointJacobianAt f JI JD J 0 0 p := by
    refine joint_of_partials
      (g := fun t => (c.proj.update t.1).toPixel ((F.make (c.k + t.2.1)).distort ((c.proj.update t.1).plane t.2.2)))
      ?_ ?_ ?_ ?_ ?_
    · filter_upwards [hev, hval] with t ht hv
      simp only [f, after_valid _ hv, Omni.project]
      rw [if_neg]
      · rfl
      · exact not_le.2 ht
    · have hn : DifferentiableAt ℝ (fun t : (Fin 5 → ℝ) × (Fin n → ℝ) × V3 => Omni.norm3 t.2.2) (0, 0, p) := by
        unfold Omni.norm3
        refine DifferentiableAt.sqrt (by fun_prop) ?_
        intro h0
        unfold Omni.norm3 at hd
        simp [h0] at hd
      have hin : DifferentiableAt ℝ (fun t : (Fin 5 → ℝ) × (Fin n → ℝ) × V3 =>
          (c.k + t.2.1, (c.proj.update t.1).plane t.2.2)) (0, 0, p) := by
        refine DifferentiableAt.prodMk (by fun_prop) (differentiableAt_pi.2 fun i => ?_)
        have hr : DifferentiableAt ℝ (fun t : (Fin 5 → ℝ) × (Fin n → ℝ) × V3 =>
            1 / (t.2.2 2 + (c.proj.xi + t.1 0) * Omni.norm3 t.2.2)) (0, 0, p) := by
          refine diff_div (by fun_prop) (DifferentiableAt.fun_add (by fun_prop)
            (DifferentiableAt.fun_mul (by fun_prop) hn)) ?_
          simpa using hs.ne'
        fin_cases i
        · exact DifferentiableAt.fun_mul (diff_coord 0 _) hr
        · exact DifferentiableAt.fun_mul (diff_coord 1 _) hr
      have hcomp := DifferentiableAt.comp (g := fun t : (Fin n → ℝ) × V2 => (F.make t.1).distort t.2)
        ((0, 0, p) : (Fin 5 → ℝ) × (Fin n → ℝ) × V3) (by simpa only [hu0, add_zero] using hD) hin
      have hc := differentiableAt_pi.1 hcomp
      refine differentiableAt_pi.2 fun i => ?_
      fin_cases i
      · have := hc 0
        simp only [Frame.toPixel, Omni.update]
        exact DifferentiableAt.fun_add (DifferentiableAt.fun_mul (by fun_prop) this) (by fun_prop)
      · have := hc 1
        simp only [Frame.toPixel, Omni.update]
        exact DifferentiableAt.fun_add (DifferentiableAt.fun_mul (by fun_prop) this) (by fun_prop)
    · refine h4.congr_of_eventuallyEq (Filter.Eventually.of_forall fun v => ?_)
      simp only [f, after_valid _ hv0, add_zero]
      rfl
    · refine (shift h2).congr_of_eventuallyEq ?_
      filter_upwards [hw] with w hw
      simp only [f, hu0, after_valid _ hw]
      rfl
    · refine h1.congr_of_eventuallyEq (Filter.Eventually.of_forall fun q => ?_)
      simp only [f, hu0, after_valid _ hv0, add_zero]
  rw [← hp] at hjoint
  have hl := lift_joint h3 hjoint
  refine ⟨JI, JD, if ph 3 < 0 then -widen J else widen J, by simp only [omni, hp]; exact e4,
    by simp only [omni, hp]; exact e2, ?_, ?_⟩
  · simp only [omni, Omni.projectHJac]
    unfold front at hp
    split_ifs at hp ⊢ with hn <;> rw [hp, e1] <;> rfl
  · have : keypointAfter (omni F) c = fun v w q => f v w (front q) := by
      funext v w q
      simp only [keypointAfter, omni, f]
      cases F.update (⟨c.proj.update v, c.k⟩ : Cam (Omni n) n) w <;> simp [hH]
    rw [this]
    exact hl

/-- Without distortion parameters there is nothing to differentiate. -/
theorem jac_none {f : (Fin 0 → ℝ) → Option V2} {y : V2} (h : f 0 = some y) (M : Matrix (Fin 2) (Fin 0) ℝ) :
    IsPartialJacobianAt f M 0 := by
  have hc (w : Fin 0 → ℝ) : w = 0 := Subsingleton.elim _ _
  refine ⟨fun _ => y, Filter.Eventually.of_forall fun w => by rw [hc w, h], ?_⟩
  have : LinearMap.toContinuousLinearMap (Matrix.toLin' M) = (0 : (Fin 0 → ℝ) →L[ℝ] V2) := by
    ext w; rw [hc w]; simp
  unfold IsJacobianAt
  rw [this]
  exact hasFDerivAt_const _ _

/-- **C106** (extended unified cameras), for equal focal lengths: with different ones the Jacobian of the intrinsics is
wrong (`C55_eucm_intrinsics_counterexample`). -/
theorem C106_eucm_partial (c : EUCM 0) (hf : c.fu = c.fv) (ha : 0 ≤ c.alpha) (ha' : c.alpha ≤ 1) (hb : 0 ≤ c.beta)
    (ph : V4) (h3 : ph 3 ≠ 0) (k : V2) (hk : eucm.projectH c ph = some k) : JacobiansCorrect eucm c ph := by
  have hH (f : EUCM 0) (q : V4) : (f.projectH q).1 = (f.project (front q)).1 := by
    unfold EUCM.projectH front; split_ifs <;> rfl
  have hu0 : c.update 0 = c := by simp [EUCM.update]
  have hk' : (c.project (front ph)).1 = some k := by rw [← hH]; exact hk
  have h1 := C55_eucm_point c ha ha' hb (front ph) k hk'
  have h4 := C55_eucm_intrinsics_partial c hf ha ha' hb (front ph) k hk'
  have hJ : eucmHJac c ph = if ph 3 < 0 then -widen (c.projectJ (front ph)) else widen (c.projectJ (front ph)) := by
    unfold eucmHJac front; split_ifs <;> rfl
  generalize hp : front ph = p at *
  have hacc : -(c.fovParameter * c.dist p) < p 2 := by
    by_contra hcon
    simp [EUCM.project, not_lt.1 hcon] at hk'
  obtain ⟨hd, hN, -⟩ := EUCM.accepted ha ha' hb hacc
  have hev : ∀ᶠ t : (Fin 6 → ℝ) × (Fin 0 → ℝ) × V3 in nhds (0, 0, p),
      -((c.update t.1).fovParameter * (c.update t.1).dist t.2.2) < t.2.2 2 := by
    have c1 : Continuous fun t : (Fin 6 → ℝ) × (Fin 0 → ℝ) × V3 =>
        -((c.update t.1).fovParameter * (c.update t.1).dist t.2.2) := by
      simp only [EUCM.fovParameter_eq, EUCM.update, EUCM.dist]
      refine (Continuous.mul (Continuous.div (by fun_prop) (by fun_prop) ?_) (by fun_prop)).neg
      intro v
      have h1 := le_max_right (c.alpha + v.1 0) (1 - (c.alpha + v.1 0))
      have h2 := le_max_left (c.alpha + v.1 0) (1 - (c.alpha + v.1 0))
      linarith
    have c2 : Continuous fun t : (Fin 6 → ℝ) × (Fin 0 → ℝ) × V3 => t.2.2 2 := by fun_prop
    exact c1.continuousAt.eventually_lt c2.continuousAt (by simpa only [hu0] using hacc)
  let f : (Fin 6 → ℝ) → (Fin 0 → ℝ) → V3 → Option V2 := fun v _ q => ((c.update v).project q).1
  have hjoint : IsJointJacobianAt f (c.intrinsicsJ p) (Matrix.of fun _ j => j.elim0) (c.projectJ p) 0 0 p := by
    refine joint_of_partials (g := fun t => (c.update t.1).toPixel ((c.update t.1).plane t.2.2)) ?_ ?_ ?_ ?_ ?_
    · filter_upwards [hev] with t ht
      simp only [f, EUCM.project, not_le.2 ht, if_false]
    · have hn : DifferentiableAt ℝ (fun t : (Fin 6 → ℝ) × (Fin 0 → ℝ) × V3 =>
          √((c.beta + t.1 1) * (t.2.2 0 * t.2.2 0 + t.2.2 1 * t.2.2 1) + t.2.2 2 * t.2.2 2)) (0, 0, p) := by
        refine DifferentiableAt.sqrt (by fun_prop) ?_
        intro h0
        unfold EUCM.dist at hd
        simp only [Pi.zero_apply, add_zero] at h0
        simp [h0] at hd
      have hr : DifferentiableAt ℝ (fun t : (Fin 6 → ℝ) × (Fin 0 → ℝ) × V3 => 1 / ((c.alpha + t.1 0) *
          √((c.beta + t.1 1) * (t.2.2 0 * t.2.2 0 + t.2.2 1 * t.2.2 1) + t.2.2 2 * t.2.2 2)
            + (1 - (c.alpha + t.1 0)) * t.2.2 2)) (0, 0, p) := by
        refine diff_div (by fun_prop) (DifferentiableAt.fun_add
          (DifferentiableAt.fun_mul (by fun_prop) hn) (by fun_prop)) ?_
        simpa [EUCM.norm, EUCM.dist] using hN.ne'
      refine differentiableAt_pi.2 fun i => ?_
      fin_cases i
      · have := DifferentiableAt.fun_mul (diff_coord 0 ((0, 0, p) : (Fin 6 → ℝ) × (Fin 0 → ℝ) × V3)) hr
        simp only [Frame.toPixel, EUCM.plane, EUCM.norm, EUCM.dist, EUCM.update]
        exact DifferentiableAt.fun_add (DifferentiableAt.fun_mul (by fun_prop) this) (by fun_prop)
      · have := DifferentiableAt.fun_mul (diff_coord 1 ((0, 0, p) : (Fin 6 → ℝ) × (Fin 0 → ℝ) × V3)) hr
        simp only [Frame.toPixel, EUCM.plane, EUCM.norm, EUCM.dist, EUCM.update]
        exact DifferentiableAt.fun_add (DifferentiableAt.fun_mul (by fun_prop) this) (by fun_prop)
    · exact h4
    · exact jac_none (y := k) (by simp only [f, hu0]; exact hk') _
    · simpa only [f, hu0] using h1
  rw [← hp] at hjoint
  have hl := lift_joint h3 hjoint
  rw [hp] at hl
  refine ⟨c.intrinsicsJ p, _, _, by simp only [eucm, hp], rfl, by simp only [eucm]; rw [hJ], ?_⟩
  have : keypointAfter eucm c = fun v w q => f v w (front q) := by
    funext v w q
    simp only [keypointAfter, eucm, f, hH]
  rw [this]
  exact hl

/-- **C106** (double sphere cameras). -/
theorem C106_ds (c : DS 0) (ha : 0 ≤ c.alpha) (ha' : c.alpha ≤ 1) (hx : -1 < c.xi)
    (hxw : -(2 * (if c.alpha ≤ 1 / 2 then c.alpha / (1 - c.alpha) else (1 - c.alpha) / c.alpha)) ≤ c.xi)
    (ph : V4) (h3 : ph 3 ≠ 0) (k : V2) (hk : ds.projectH c ph = some k) : JacobiansCorrect ds c ph := by
  have hH (f : DS 0) (q : V4) : (f.projectH q).1 = (f.project (front q)).1 := by
    unfold DS.projectH front; split_ifs <;> rfl
  have hu0 : c.update 0 = c := by simp [DS.update]
  have hk' : (c.project (front ph)).1 = some k := by rw [← hH]; exact hk
  have h1 := C55_ds_point c ha ha' hx hxw (front ph) k hk'
  have h4 := C55_ds_intrinsics c ha ha' hx hxw (front ph) k hk'
  have hJ : dsHJac c ph = if ph 3 < 0 then -widen (c.projectJ (front ph)) else widen (c.projectJ (front ph)) := by
    unfold dsHJac front; split_ifs <;> rfl
  generalize hp : front ph = p at *
  have hacc : -(c.fovParameter * DS.d1 p) < p 2 := by
    by_contra hcon
    simp [DS.project, not_lt.1 hcon] at hk'
  obtain ⟨hd1, hd2, hN, -⟩ := DS.accepted ha ha' hx hxw hacc
  have hev : ∀ᶠ t : (Fin 6 → ℝ) × (Fin 0 → ℝ) × V3 in nhds (0, 0, p),
      -((c.update t.1).fovParameter * DS.d1 t.2.2) < t.2.2 2 := by
    have ct : Continuous fun t : (Fin 6 → ℝ) × (Fin 0 → ℝ) × V3 => (c.update t.1).temp := by
      simp only [DS.temp_eq, EUCM.fovParameter_eq, DS.second, DS.update]
      refine Continuous.div (by fun_prop) (by fun_prop) ?_
      intro v
      have h1 := le_max_right (c.alpha + v.1 1) (1 - (c.alpha + v.1 1))
      have h2 := le_max_left (c.alpha + v.1 1) (1 - (c.alpha + v.1 1))
      linarith
    have cx : Continuous fun t : (Fin 6 → ℝ) × (Fin 0 → ℝ) × V3 => (c.update t.1).xi := by
      simp only [DS.update]; fun_prop
    have c1 : ContinuousAt (fun t : (Fin 6 → ℝ) × (Fin 0 → ℝ) × V3 => -((c.update t.1).fovParameter * DS.d1 t.2.2))
        (0, 0, p) := by
      unfold DS.fovParameter
      refine (ContinuousAt.mul (ContinuousAt.div (ct.add cx).continuousAt ?_ ?_) ?_).neg
      · exact (((continuous_const.mul ct).mul cx).add (cx.mul cx) |>.add continuous_const).sqrt.continuousAt
      · simp only [hu0]; exact (Real.sqrt_pos.2 (c.root_pos ha ha' hx)).ne'
      · exact (DS.cont_d1.comp (continuous_snd.comp continuous_snd)).continuousAt
    have c2 : Continuous fun t : (Fin 6 → ℝ) × (Fin 0 → ℝ) × V3 => t.2.2 2 := by fun_prop
    exact c1.eventually_lt c2.continuousAt (by simpa only [hu0] using hacc)
  let f : (Fin 6 → ℝ) → (Fin 0 → ℝ) → V3 → Option V2 := fun v _ q => ((c.update v).project q).1
  have hjoint : IsJointJacobianAt f (c.intrinsicsJ p) (Matrix.of fun _ j => j.elim0) (c.projectJ p) 0 0 p := by
    refine joint_of_partials (g := fun t => (c.update t.1).toPixel ((c.update t.1).plane t.2.2)) ?_ ?_ ?_ ?_ ?_
    · filter_upwards [hev] with t ht
      simp only [f, DS.project, not_le.2 ht, if_false]
    · have d1' : DifferentiableAt ℝ (fun t : (Fin 6 → ℝ) × (Fin 0 → ℝ) × V3 => DS.d1 t.2.2) (0, 0, p) := by
        unfold DS.d1
        refine DifferentiableAt.sqrt (by fun_prop) ?_
        intro h0
        unfold DS.d1 at hd1
        simp [h0] at hd1
      have kk' : DifferentiableAt ℝ (fun t : (Fin 6 → ℝ) × (Fin 0 → ℝ) × V3 => (c.update t.1).kk t.2.2) (0, 0, p) := by
        simp only [DS.kk, DS.update]
        exact DifferentiableAt.fun_add (DifferentiableAt.fun_mul (by fun_prop) d1') (by fun_prop)
      have d2' : DifferentiableAt ℝ (fun t : (Fin 6 → ℝ) × (Fin 0 → ℝ) × V3 => (c.update t.1).d2 t.2.2) (0, 0, p) := by
        unfold DS.d2
        refine DifferentiableAt.sqrt (DifferentiableAt.fun_add (by fun_prop) (DifferentiableAt.fun_mul kk' kk')) ?_
        intro h0
        simp only [hu0] at h0
        unfold DS.d2 at hd2
        simp [h0] at hd2
      have hr : DifferentiableAt ℝ (fun t : (Fin 6 → ℝ) × (Fin 0 → ℝ) × V3 => 1 / (c.update t.1).norm t.2.2)
          (0, 0, p) := by
        refine diff_div (by fun_prop) (DifferentiableAt.fun_add (DifferentiableAt.fun_mul ?_ d2')
          (DifferentiableAt.fun_mul ?_ kk')) ?_
        · simp only [DS.update]; fun_prop
        · simp only [DS.update]; fun_prop
        · simpa only [hu0] using hN.ne'
      refine differentiableAt_pi.2 fun i => ?_
      fin_cases i
      · have := DifferentiableAt.fun_mul (diff_coord 0 ((0, 0, p) : (Fin 6 → ℝ) × (Fin 0 → ℝ) × V3)) hr
        refine DifferentiableAt.fun_add (DifferentiableAt.fun_mul ?_ this) ?_ <;> simp only [DS.update] <;> fun_prop
      · have := DifferentiableAt.fun_mul (diff_coord 1 ((0, 0, p) : (Fin 6 → ℝ) × (Fin 0 → ℝ) × V3)) hr
        refine DifferentiableAt.fun_add (DifferentiableAt.fun_mul ?_ this) ?_ <;> simp only [DS.update] <;> fun_prop
    · exact h4
    · exact jac_none (y := k) (by simp only [f, hu0]; exact hk') _
    · simpa only [f, hu0] using h1
  rw [← hp] at hjoint
  have hl := lift_joint h3 hjoint
  rw [hp] at hl
  refine ⟨c.intrinsicsJ p, _, _, by simp only [ds, hp], rfl, by simp only [ds]; rw [hJ], ?_⟩
  have : keypointAfter ds c = fun v w q => f v w (front q) := by
    funext v w q
    simp only [keypointAfter, ds, f, hH]
  rw [this]
  exact hl

end Kalibr.Reproj
